import Verif.Spec.DemuxerSettled
import Verif.Lemmas.DemuxerSettled
import Verif.Props.DemuxerMemory
/-! # Lemmas: what waits in an orderly history -/
namespace Avf
open Go

/-- Packets of two tracks: the lanes keep the order of each. -/
theorem two_order (ps : List AVPacket) (hn : ∀ p ∈ ps, p.index = 0 ∨ p.index = 1) (k : Nat) :
    ofTrack k (lanes ps).flatten = ofTrack k ps := by
  have key : (∀ q ∈ (lanes ps).getD 1 [], q.index = 1) ∧ (lanes ps).length ≤ 2 ∧ ((lanes ps).length = 0 → ps = []) ∧
      ∀ k : Nat, ofTrack k (lanes ps).flatten = ofTrack k ps := by
    induction ps using List.reverseRecOn with
    | nil => exact ⟨by simp [lanes], by simp [lanes], fun _ => rfl, fun k => by simp [lanes, ofTrack]⟩
    | append_singleton ps p ih =>
      obtain ⟨h1, h2, h0, h3⟩ := ih fun q hq => hn q (List.mem_append_left _ hq)
      have hp := hn p (by simp)
      have hlen := putLane_length (lanes ps) p
      rw [lanes_concat]
      refine ⟨?_, ?_, ?_, fun k => ?_⟩
      · rw [putLane_getD (by omega)]
        split
        · intro q hq
          rcases List.mem_append.1 hq with hq | hq
          · exact h1 q hq
          · rw [List.mem_singleton] at hq
            subst hq
            rename_i hs
            rcases hp with hp | hp
            · exfalso
              unfold Demuxer.slot at hs
              split at hs
              · omega
              · omega
            · exact hp
        · exact h1
      · rw [hlen]; split <;> omega
      · intro h; rw [hlen] at h; split at h <;> omega
      · rw [ofTrack_append, ← h3 k]
        unfold putLane
        split
        · rename_i hlt
          match hl : lanes ps, h2 with
          | [], _ => rw [hl, List.length_nil] at hlt; omega
          | [l], _ =>
            have : p.index.toNat = 0 := by rw [hl] at hlt; simp only [List.length_cons, List.length_nil] at hlt; omega
            rw [this]
            simp [ofTrack]
          | [l, l'], _ =>
            rcases hp with hp | hp
            · rw [hp]
              simp only [Int.toNat_zero, List.modify_zero_cons, List.flatten_cons, List.flatten_nil, List.append_nil]
              simp only [ofTrack_append, List.append_assoc]
              congr 1
              have : ∀ q ∈ l', q.index = 1 := by rw [hl] at h1; exact h1
              rw [ofTrack_single]
              by_cases hk : k = 0
              · have : ofTrack k l' = [] := by
                  unfold ofTrack
                  rw [List.filter_eq_nil_iff]
                  intro q hq
                  have := this q hq
                  simp only [decide_eq_true_eq]
                  omega
                rw [this]; simp
              · rw [if_neg (by omega)]; simp
            · rw [hp]
              simp [ofTrack_append]
        · rw [List.flatten_append, ofTrack_append]; simp
  exact key.2.2.2 k

/-- More packets after the lanes are settled. -/
theorem settled_fold {n : Nat} : ∀ (after : List AVPacket) (ls : List (List AVPacket)), Settled ls → n ≤ ls.length + 1 →
    (∀ p ∈ after, 0 ≤ p.index ∧ p.index < n) → Settled (after.foldl putLane ls) := by
  intro after
  induction after with
  | nil => intro ls hs _ _; exact hs
  | cons p after ih =>
    intro ls hs hn hp
    obtain ⟨h0, h1⟩ := hp p (List.mem_cons_self ..)
    obtain ⟨h2, h3, _⟩ := settled_put hs h0 (by omega)
    exact ih _ h2 (by omega) fun q hq => hp q (List.mem_cons_of_mem _ hq)

/-- In an orderly history the lanes are settled when probing has ended. -/
theorem orderly_settled {name : String} {a : Bool} {h : List (Oracle × DemuxOp)} {s : Demuxer} (hr : Reached name a h s)
    (hc : s.completed = true) (ho : Orderly s) : Settled (lanes (taken s.calls)) := by
  have hk : ∀ p ∈ taken s.calls, 0 ≤ p.index ∧ p.index < s.tracks.tracks.length := fun p hp =>
    (Demuxer.Reached.inv hr).range (Demuxer.Reached.takenKnown hr p hp)
  rcases ho with hf | ⟨hn, hseen⟩
  · intro j hj
    have h1 := (C62_lanes_are_tracks hr).2 hf j
    have hne : (lanes (taken s.calls)).getD j [] ≠ [] := by
      rw [List.getD_eq_getElem?_getD, List.getElem?_eq_getElem hj]
      exact lanes_nonempty _ (taken_nonneg hr) _ (List.getElem_mem hj)
    refine ⟨_, List.getLast?_eq_getLast_of_ne_nil hne, ?_⟩
    have := List.getLast_mem hne
    generalize ((lanes (taken s.calls)).getD j []).getLast hne = x at this ⊢
    rw [h1] at this
    exact (mem_ofTrack.1 this).2
  · obtain ⟨after, early, h1, _⟩ := C62_exact hr hc
    have hk1 : ∀ p ∈ taken (beforeComplete s.calls), p.index = 0 ∨ p.index = 1 := fun p hp => by
      have := hk p (by rw [h1]; exact List.mem_append_left _ hp); omega
    obtain ⟨g1, g2, g3, g4⟩ := two_settled _ hk1
    have hfold : after.foldl putLane (lanes (taken (beforeComplete s.calls))) = lanes (taken s.calls) := by
      rw [h1]; unfold lanes; rw [List.foldl_append]
    rw [← hfold]
    refine settled_fold (n := s.tracks.tracks.length) after _ ?_ ?_ fun p hp => hk p (by rw [h1]; exact List.mem_append_right _ hp)
    · intro j hj
      have hpos : 0 < s.tracks.tracks.length := by
        rcases Nat.eq_zero_or_pos s.tracks.tracks.length with h0 | h0
        · have : taken (beforeComplete s.calls) = [] := by
            cases e : taken (beforeComplete s.calls) with
            | nil => rfl
            | cons p r =>
              have := hk p (by rw [h1, e]; simp)
              omega
          rw [this] at hj; cases hj
        · exact h0
      obtain rfl | rfl : j = 0 ∨ j = 1 := by omega
      · exact g3 (hseen 0 hpos)
      · exact g4 hj
    · by_cases h0 : 0 < s.tracks.tracks.length
      · obtain ⟨p, hp, _⟩ := hseen 0 h0
        have := g2 (List.ne_nil_of_mem hp); omega
      · omega

/-- The tracks and their buffers only grow. -/
theorem runDemux_bufferOf {l : List (Oracle × DemuxOp)} : ∀ {s s' : Demuxer}, Demuxer.Inv s → (∀ x ∈ l, x.1.Valid) → runDemux s l = ok s' →
    s.bufferOf <+: s'.bufferOf := by
  induction l with
  | nil => intro s s' _ _ h; injection h with h; rw [h]; exact List.prefix_rfl
  | cons x l ih =>
    intro s s' hi hv h
    obtain ⟨o, e⟩ := x
    obtain ⟨s1, h1, h2⟩ := bind_eq_ok.1 h
    have ho : o.Valid := hv (o, e) (List.mem_cons_self ..)
    have hi1 : Demuxer.Inv s1 := hi.micros (Demuxer.run_micros ho hi h1)
    refine List.IsPrefix.trans ?_ (ih hi1 (fun x hx => hv x (List.mem_cons_of_mem _ hx)) h2)
    cases Demuxer.run_shape ho hi h1 with
    | plain _ _ _ hb => rw [hb]; exact List.prefix_rfl
    | track b _ _ hb =>
      rcases hb with hb | hb
      · rw [hb]; exact List.prefix_rfl
      · rw [hb]; exact List.prefix_append ..
    | reject _ _ _ _ hb => rw [hb]; exact List.prefix_rfl
    | accept p _ _ _ _ _ _ hb =>
      rcases hb with ⟨hb, _⟩ | ⟨_, _, hb⟩
      · rw [hb]; exact List.prefix_rfl
      · rw [hb]; exact List.prefix_append ..

theorem Demuxer.Inv.tracks_length {s : Demuxer} (hi : Demuxer.Inv s) : s.bufferOf.length = s.tracks.tracks.length := by
  have := congrArg List.length hi.keys
  simpa using this

/-- Before the end of an orderly history: it is orderly, or still probing with two tracks at most. -/
theorem orderly_before {name : String} {a : Bool} {l1 l2 : List (Oracle × DemuxOp)} {s1 s : Demuxer} (hr1 : Reached name a l1 s1)
    (hr : Reached name a (l1 ++ l2) s) (ho : Orderly s) : Orderly s1 ∨ s1.completed = false ∧ s1.tracks.tracks.length ≤ 2 := by
  have hv : ∀ x ∈ l2, x.1.Valid := fun x hx => hr.1 x (List.mem_append_right _ hx)
  obtain ⟨s1', h1, h2⟩ := runDemux_prefix hr.2
  rw [hr1.2] at h1
  cases h1
  obtain ⟨cs, hcs⟩ := Demuxer.Micros.grows (Demuxer.runDemux_micros (Demuxer.Reached.inv hr1) hv h2)
  rcases ho with hf | ⟨hn, hs⟩
  · left; left
    intro l p r e j hj
    refine hf l p (r ++ taken cs) ?_ j hj
    rw [← hcs, Demuxer.taken_append, e]; simp
  · have hlen : s1.tracks.tracks.length ≤ s.tracks.tracks.length := by
      rw [← (Demuxer.Reached.inv hr1).tracks_length, ← (Demuxer.Reached.inv hr).tracks_length]
      exact (runDemux_bufferOf (Demuxer.Reached.inv hr1) hv h2).length_le
    cases hc : s1.completed with
    | false => exact Or.inr ⟨rfl, by omega⟩
    | true =>
      left; right
      rcases (Demuxer.Reached.seen hr1).2 hc with ⟨h0, _⟩ | ⟨_, ps, hps, _⟩
      · rw [h0]; exact ⟨by simp, fun i hi => by simp at hi⟩
      · have hm : Call.trackComplete ∈ s1.calls := by
          have : Call.trackComplete ∈ toHandler s1.calls := by rw [hps]; simp
          exact List.mem_of_mem_filter this
        refine ⟨by omega, fun i hi => ?_⟩
        have := hs i (by omega)
        rw [← hcs, Demuxer.beforeComplete_in hm] at this
        exact this

/-- What waits of a track are the packets taken last. -/
theorem orderly_waiting_track {name : String} {a : Bool} {h : List (Oracle × DemuxOp)} {s : Demuxer} (hr : Reached name a h s)
    (ho : Orderly s ∨ s.completed = false ∧ s.tracks.tracks.length ≤ 2) (i : Nat) :
    (ofTrack i s.packets.flatten).map bare <:+ (ofTrack i (taken s.calls)).map bare := by
  have hk : ∀ p ∈ taken s.calls, 0 ≤ p.index ∧ p.index < s.tracks.tracks.length := fun p hp =>
    (Demuxer.Reached.inv hr).range (Demuxer.Reached.takenKnown hr p hp)
  have h0 := taken_nonneg hr
  cases hc : s.completed with
  | false =>
    have h1 := (C62_exact_probing hr hc).2
    have h2 : ofTrack i (lanes (taken s.calls)).flatten = ofTrack i (taken s.calls) := by
      have htwo : s.tracks.tracks.length ≤ 2 → ofTrack i (lanes (taken s.calls)).flatten = ofTrack i (taken s.calls) := fun hn =>
        two_order _ (fun p hp => by have := hk p hp; omega) i
      rcases ho with (hf | ⟨hn, _⟩) | ⟨_, hn⟩
      · have hl := (C62_lanes_are_tracks hr).2 hf
        rw [← hl i]
        refine ofTrack_flatten (fun j q hj p hp => ?_) i
        have hg : (lanes (taken s.calls)).getD j [] = q := by rw [List.getD_eq_getElem?_getD, hj]; rfl
        rw [← hg, hl j] at hp
        exact (mem_ofTrack.1 hp).2
      · exact htwo hn
      · exact htwo hn
    have h3 : s.packets.flatten.map bare = (lanes (taken s.calls)).flatten.map bare := by
      rw [h1, List.map_flatten, List.map_map, List.map_flatten]
      congr 1
      refine List.map_congr_left fun l _ => ?_
      simp only [Function.comp_apply]
      rw [List.map_append, ← bare_parts]
    rw [ofTrack_map_bare, h3, ← ofTrack_map_bare, h2]; exact List.suffix_rfl
  | true =>
    have ho : Orderly s := ho.resolve_right (by rw [hc]; simp)
    obtain ⟨_, _, _, _, _, _, h5⟩ := C62_exact hr hc
    have hs := orderly_settled hr hc ho
    have h6 := settled_lasts i (lanes (taken s.calls)) 0 hs
    have h7 : s.packets.flatten = (lanes (taken s.calls)).flatMap laneLast := by rw [h5]; rfl
    rw [if_pos (Nat.zero_le _), Nat.sub_zero] at h6
    rw [h7, h6]
    cases hh : ((lanes (taken s.calls)).getD i []).getLast? with
    | none => 
      have : laneLast ((lanes (taken s.calls)).getD i []) = [] := by unfold laneLast; rw [hh]; rfl
      rw [this]; exact List.nil_suffix
    | some x =>
      have : laneLast ((lanes (taken s.calls)).getD i []) = [x] := by unfold laneLast; rw [hh]; rfl
      rw [this]
      have hlt : i < (lanes (taken s.calls)).length := by
        by_contra hge
        rw [List.getD_eq_getElem?_getD, List.getElem?_eq_none (by omega)] at hh
        cases hh
      obtain ⟨y, hy, hyi⟩ := hs i hlt
      rw [hh] at hy
      cases hy
      have h8 := lanes_recent _ h0 i x hh hyi
      obtain ⟨l, hl⟩ := List.getLast?_eq_some_iff.1 h8
      rw [hl, List.map_append]
      exact List.suffix_append ..

/-- Packets of a buffer are those of its track. -/
theorem buffer_lane {name : String} {a : Bool} {h : List (Oracle × DemuxOp)} {s : Demuxer} (hr : Reached name a h s)
    (hn : (s.bufferOf.map Prod.snd).Nodup) (b : Int) :
    (∃ k : Nat, ofBuffer b (taken s.calls) = ofTrack k (taken s.calls) ∧ ofBuffer b (delivered s.calls) = ofTrack k (delivered s.calls) ∧
      ofBuffer b s.packets.flatten = ofTrack k s.packets.flatten) ∨
    ofBuffer b (taken s.calls) = [] ∧ ofBuffer b (delivered s.calls) = [] ∧ ofBuffer b s.packets.flatten = [] := by
  have hi := Demuxer.Reached.inv hr
  have hcons := Demuxer.Reached.conserved hr
  have hkn := Demuxer.Reached.takenKnown hr
  have hk2 : ∀ p ∈ delivered s.calls ++ s.packets.flatten, Demuxer.Known s p := by
    intro p hp
    obtain ⟨q, hq1, hq2⟩ := List.mem_map.1 (hcons.subset (List.mem_map_of_mem (f := bare) hp))
    have h1 := hkn q hq1
    unfold Demuxer.Known at h1 ⊢
    have e1 : (bare q).index = (bare p).index := congrArg AVPacket.index hq2
    have e2 : (bare q).bufferIndex = (bare p).bufferIndex := congrArg AVPacket.bufferIndex hq2
    rw [show p.index = q.index from e1.symm, show p.bufferIndex = q.bufferIndex from e2.symm]; exact h1
  by_cases hb : b ∈ s.bufferOf.map Prod.snd
  · left
    obtain ⟨⟨i, b'⟩, hib, rfl⟩ := List.mem_map.1 hb
    dsimp only
    obtain ⟨k, rfl⟩ : ∃ k : Nat, i = (k : Int) := ⟨i.toNat, by have := hi.keyRange hib; omega⟩
    have hset : ∀ l : List AVPacket, (∀ p ∈ l, Demuxer.Known s p) → ofBuffer b' l = ofTrack k l := by
      intro l hl
      unfold ofBuffer ofTrack
      refine List.filter_congr fun p hp => ?_
      have hk := Demuxer.lookup_mem (hl p hp)
      rw [decide_eq_decide]
      constructor
      · intro e
        rw [e] at hk
        exact (Prod.mk.inj (List.inj_on_of_nodup_map hn hk hib rfl)).1
      · intro e
        rw [e] at hk
        exact (Prod.mk.inj (List.inj_on_of_nodup_map hi.nodup hk hib rfl)).2
    exact ⟨k, hset _ hkn, hset _ (fun p hp => hk2 p (List.mem_append_left _ hp)), hset _ (fun p hp => hk2 p (List.mem_append_right _ hp))⟩
  · right
    have h0 : ofBuffer b (taken s.calls) = [] := by
      unfold ofBuffer
      rw [List.filter_eq_nil_iff]
      intro p hp
      simp only [decide_eq_true_eq]
      rintro rfl
      exact hb (List.mem_map.2 ⟨_, Demuxer.lookup_mem (hkn p hp), rfl⟩)
    have := hcons.length b
    rw [h0, List.length_nil] at this
    exact ⟨h0, List.length_eq_zero_iff.1 (by omega : (ofBuffer b (delivered s.calls)).length = 0),
      List.length_eq_zero_iff.1 (by omega : (ofBuffer b s.packets.flatten).length = 0)⟩

/-- At every moment of an orderly history without two tracks on a buffer. -/
theorem orderly_waiting {name : String} {a : Bool} {l1 l2 : List (Oracle × DemuxOp)} {s1 s : Demuxer} (hr1 : Reached name a l1 s1)
    (hr : Reached name a (l1 ++ l2) s) (ho : Orderly s) (hn : (s.bufferOf.map Prod.snd).Nodup) : Waiting s1 := by
  intro b
  have hn1 : (s1.bufferOf.map Prod.snd).Nodup := by
    obtain ⟨s1', h1, h2⟩ := runDemux_prefix hr.2
    rw [hr1.2] at h1
    cases h1
    obtain ⟨r, e⟩ := runDemux_bufferOf (Demuxer.Reached.inv hr1) (fun x hx => hr.1 x (List.mem_append_right _ hx)) h2
    rw [← e, List.map_append] at hn
    exact (List.nodup_append.1 hn).1
  have hlen := (Demuxer.Reached.conserved hr1).length b
  have hsuf : (ofBuffer b s1.packets.flatten).map bare <:+ (ofBuffer b (taken s1.calls)).map bare := by
    rcases buffer_lane hr1 hn1 b with ⟨k, h1, h2, h3⟩ | ⟨h1, h2, h3⟩
    · rw [h1, h3]; exact orderly_waiting_track hr1 (orderly_before hr1 hr ho) k
    · rw [h3]; exact List.nil_suffix
  obtain ⟨l, hl⟩ := hsuf
  have := congrArg List.length hl
  rw [List.length_append, List.length_map, List.length_map] at this
  rw [← hl, show (ofBuffer b (delivered s1.calls)).length = l.length by omega, List.drop_left]

end Avf
