import Verif.Props.Durations
import Verif.Props.Demuxer
/-! # The rates that completion writes into the tracks -/
namespace Avf
open Go

namespace Demuxer

/-- What completion did to the tracks, in terms of the packets taken before. -/
def WasTuned (s : Demuxer) : Prop :=
  s.completed = true → ∃ (u : Int) (ts : List AVStream), s.tracks.tracks = ts.map (retune u ((Avf.lanes (taken (beforeComplete s.calls))).map queueOf))

theorem WasTuned.micro {s s' : Demuxer} (hi : Inv s) (hse : Seen s) (hl : LInv s) (h : WasTuned s) (m : Micro s s') : WasTuned s' := by
  have hnc : s.completed = false → Call.trackComplete ∉ s.calls := by
    intro hc hm
    have : Call.trackComplete ∈ toHandler s.calls := List.mem_filter.2 ⟨hm, rfl⟩
    rw [hse.1 hc] at this; cases this
  cases m with
  | quiet os pd => exact h
  | register t b hc ht => intro hc'; rw [show s.completed = true from hc'] at hc; cases hc
  | reject b =>
    intro hc
    obtain ⟨u, ts, e⟩ := h hc
    refine ⟨u, ts, ?_⟩
    show s.tracks.tracks = _
    have : taken (beforeComplete (s.call [.discardBack b]).calls) = taken (beforeComplete s.calls) :=
      taken_beforeComplete_append (d := [.discardBack b]) rfl
    rw [this]; exact e
  | probing p hc hk => intro hc'; rw [show s.completed = true from hc'] at hc; cases hc
  | notFound hc ht => intro _; exact ⟨0, [], ht⟩
  | done ts rs hc ht hts hp hs hu =>
    intro _
    obtain ⟨u, rfl⟩ := hu
    have hb : taken (beforeComplete (s.done (s.tracks.tracks.map (retune u s.packets)) rs).calls) = taken s.calls := by
      rw [done_calls, beforeComplete_notin (hnc hc), beforeComplete_notin (by simp), taken_append, taken_append, taken_tracks]
      show _ ++ ([] ++ []) = _
      simp
    refine ⟨u, s.tracks.tracks, ?_⟩
    rw [hb, ← (hl.probing hc).2]; rfl
  | live p hc hkp =>
    intro _
    obtain ⟨u, ts, e⟩ := h hc
    obtain ⟨h0, hlt⟩ := hi.range hkp
    have hct : Call.trackComplete ∈ s.calls := by
      rcases hse.2 hc with ⟨e, _⟩ | ⟨_, ps, e, _⟩
      · rw [e] at hlt; simp at hlt; omega
      · have : Call.trackComplete ∈ toHandler s.calls := by rw [e]; simp
        exact (List.mem_filter.1 this).1
    have hb : beforeComplete (s.live p).calls = beforeComplete s.calls := by
      by_cases hx : ∃ x, s.packets[slot s.packets p]? = some [x]
      · obtain ⟨x, hx⟩ := hx
        rw [live_calls hx, beforeComplete_in hct]
      · rw [live_calls' (by simpa using hx), beforeComplete_in hct]
    refine ⟨u, ts, ?_⟩
    rw [(live_tracks s p).1, hb]; exact e

theorem Reached.tuned {name : String} {a : Bool} {l : List (Oracle × DemuxOp)} {s : Demuxer} (h : Reached name a l s) : WasTuned s := by
  have : LInv s ∧ Seen s ∧ TakenKnown s ∧ WasTuned s := by
    refine Reached.induct (P := fun s => LInv s ∧ Seen s ∧ TakenKnown s ∧ WasTuned s) h ?_ ?_
    · exact ⟨⟨fun _ => ⟨rfl, rfl⟩, fun hc => by cases hc⟩, ⟨fun _ => rfl, fun hc => by cases hc⟩, (by intro p hp; cases hp), fun hc => by cases hc⟩
    · intro s s' hi hs m
      exact ⟨hs.1.micro hi hs.2.1 hs.2.2.1 m, hs.2.1.micro hi m, hs.2.2.1.micro m, hs.2.2.2.micro hi hs.2.1 hs.1 m⟩
  exact this.2.2.2

end Demuxer

/-- If exactly the packets of track `i` have a codec, then the measured packet is the first of that track. -/
theorem firstHead_track {codec : Int} {ps : List AVPacket} {i : Nat} {p q : AVPacket} {rest : List AVPacket} (hn : ∀ x ∈ ps, 0 ≤ x.index)
    (hf : FirstsInOrder ps) (hone : ∀ x ∈ ps, x.codecID = codec ↔ x.index = (i : Int)) (hi : ofTrack i ps = p :: q :: rest) :
    firstHead codec ((lanes ps).map queueOf) = some { p with duration := wrap64 (q.dts - p.dts) } := by
  obtain ⟨l1, _⟩ := lanes_firsts hn hf
  have hpm : p ∈ ps ∧ p.index = (i : Int) := by
    have : p ∈ ofTrack i ps := by rw [hi]; simp
    have := List.mem_filter.1 this
    exact ⟨this.1, by simpa using this.2⟩
  have hx : ∀ x ∈ ((lanes ps).map queueOf).filterMap List.head?, x.codecID = codec → x = { p with duration := wrap64 (q.dts - p.dts) } := by
    intro x hx hxc
    obtain ⟨l, hl, hh⟩ := List.mem_filterMap.1 hx
    obtain ⟨l0, hl0, rfl⟩ := List.mem_map.1 hl
    obtain ⟨j, hj, rfl⟩ := List.mem_iff_getElem.1 hl0
    have e : (lanes ps)[j] = ofTrack j ps := by
      have := l1 j
      rwa [List.getD_eq_getElem?_getD, List.getElem?_eq_getElem hj, Option.getD_some] at this
    rw [e] at hh
    have hji : j = i := by
      have : ∃ y ∈ ofTrack j ps, y.codecID = x.codecID := by
        cases h1 : ofTrack j ps with
        | nil => rw [h1] at hh; cases hh
        | cons y r =>
          rw [h1] at hh
          cases r with
          | nil => cases hh; exact ⟨_, by simp, rfl⟩
          | cons z r => cases hh; exact ⟨y, by simp, rfl⟩
      obtain ⟨y, hy, hyc⟩ := this
      have hy := List.mem_filter.1 hy
      have h1 := (hone y hy.1).1 (hyc.trans hxc)
      have h2 : y.index = (j : Int) := by simpa using hy.2
      omega
    subst hji
    rw [hi] at hh
    cases hh; rfl
  have hmem : ({ p with duration := wrap64 (q.dts - p.dts) } : AVPacket) ∈ ((lanes ps).map queueOf).filterMap List.head? := by
    have e := l1 i
    rw [hi] at e
    have hlt : i < (lanes ps).length := by
      by_contra hcon
      rw [List.getD_eq_getElem?_getD, List.getElem?_eq_none (by omega)] at e
      cases e
    rw [List.getD_eq_getElem?_getD, List.getElem?_eq_getElem hlt, Option.getD_some] at e
    refine List.mem_filterMap.2 ⟨queueOf (p :: q :: rest), List.mem_map.2 ⟨_, List.getElem_mem hlt, by rw [e]⟩, rfl⟩
  unfold firstHead
  cases hfind : (((lanes ps).map queueOf).filterMap List.head?).find? fun x => x.codecID = codec with
  | none =>
    have := List.find?_eq_none.1 hfind _ hmem
    exact absurd (by simpa using (hone p hpm.1).2 hpm.2) this
  | some x =>
    have h1 := List.mem_of_find?_eq_some hfind
    have h2 : x.codecID = codec := by simpa using List.find?_some hfind
    rw [hx x h1 h2]

end Avf
