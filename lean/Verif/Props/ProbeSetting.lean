import Verif.Lemmas.ProbeTime
import Verif.Props.DemuxerLanes
/-!
# C65: the time to probe is the one that was set last
-/
namespace Avf
open Go

/-- What the last `SetProbeDuration` of a history asked for; `d` if there is none. -/
def lastProbe (d : Int) : List (Oracle × DemuxOp) → Int
  | [] => d
  | (_, .setProbeDuration n) :: h => lastProbe n h
  | _ :: h => lastProbe d h

theorem register_setting (s : Demuxer) (b : Int) (t : AVStream) : (s.register b t).2.probeDuration = s.probeDuration := by
  unfold Demuxer.register Demuxer.addTrack
  dsimp only
  by_cases hc : s.completed = true
  · rw [if_pos hc]; rfl
  · rw [if_neg hc]; dsimp only; split <;> rfl

theorem registered_setting {s s' : Demuxer} {b : Int} {t : AVStream} {r : Option AVStream} (h : (ok (s.register b t) : Go (Option AVStream × Demuxer)) = ok (r, s')) :
    s'.probeDuration = s.probeDuration := by
  injection h with h
  have := register_setting s b t
  rw [h] at this
  exact this

theorem createAudio_setting {s s' : Demuxer} {b id tb : Int} {x : Option Bytes} {c : AudioConfig} {t : Option AVStream}
    (h : s.createAudioTrack b id tb x c = ok (t, s')) : s'.probeDuration = s.probeDuration := by
  unfold Demuxer.createAudioTrack at h
  dsimp only at h
  split at h
  · split at h
    · cases h
    · split at h
      · injection h with h; injection h with _ h; rw [h]
      · cases h
      · exact registered_setting h
  · exact registered_setting h

theorem createVideo_setting {o : Oracle} {s s' : Demuxer} {b id tb : Int} {x : Option Bytes} {t : Option AVStream}
    (h : s.createVideoTrack o b id tb x = ok (t, s')) : s'.probeDuration = s.probeDuration := by
  unfold Demuxer.createVideoTrack at h
  dsimp only at h
  split at h
  · injection h with h; injection h with _ h; rw [h]
  · cases h
  · exact registered_setting h

theorem run_asks {o : Oracle} (ho : o.Valid) {s s' : Demuxer} (hi : Demuxer.Inv s) {e : DemuxOp}
    (h : e.run o s = ok s') : s'.probeDuration = lastProbe s.probeDuration [(o, e)] := by
  cases e with
  | newAudioTrack b id tb x c =>
    obtain ⟨⟨t, s1⟩, h1, h2⟩ := bind_eq_ok.1 h
    injection h2 with h2
    subst h2
    unfold Demuxer.onNewAudioTrack at h1
    obtain ⟨⟨t2, s2⟩, h3, h4⟩ := bind_eq_ok.1 h1
    have e2 : s2.probeDuration = s.probeDuration := by
      split at h3
      · exact createAudio_setting h3
      · injection h3 with h3; injection h3 with _ h3; rw [h3]
    dsimp only at h4
    split at h4 <;> (injection h4 with h4; injection h4 with _ h4; subst h4; exact e2)
  | newVideoTrack b id tb x =>
    obtain ⟨⟨t, s1⟩, h1, h2⟩ := bind_eq_ok.1 h
    injection h2 with h2
    subst h2
    unfold Demuxer.onNewVideoTrack at h1
    obtain ⟨⟨t2, s2⟩, h3, h4⟩ := bind_eq_ok.1 h1
    have e2 : s2.probeDuration = s.probeDuration := by
      split at h3
      · exact createVideo_setting h3
      · injection h3 with h3; injection h3 with _ h3; rw [h3]
    dsimp only at h4
    split at h4 <;> (injection h4 with h4; injection h4 with _ h4; subst h4; exact e2)
  | setProbeDuration n => cases h; rfl
  | findBufferIndex m => 
    rcases run_setting ho hi (e := .findBufferIndex m) trivial h with e | e
    · exact e
    · cases e
  | probeComplete =>
    rcases run_setting ho hi (e := .probeComplete) trivial h with e | e
    · exact e
    · cases e
  | tryCompleteProbe =>
    rcases run_setting ho hi (e := .tryCompleteProbe) trivial h with e | e
    · exact e
    · cases e
  | audioPacket b id d ts =>
    rcases run_setting ho hi (e := .audioPacket b id d ts) trivial h with e | e
    · exact e
    · cases e
  | videoPacket b id d k dts pts =>
    rcases run_setting ho hi (e := .videoPacket b id d k dts pts) trivial h with e | e
    · exact e
    · cases e

theorem lastProbe_cons (x : Oracle × DemuxOp) (h : List (Oracle × DemuxOp)) (d : Int) : lastProbe d (x :: h) = lastProbe (lastProbe d [x]) h := by
  obtain ⟨o, e⟩ := x
  cases e <;> rfl

theorem runDemux_asks : ∀ (l : List (Oracle × DemuxOp)) {s s' : Demuxer}, Demuxer.Inv s → (∀ x ∈ l, x.1.Valid) → runDemux s l = ok s' →
    s'.probeDuration = lastProbe s.probeDuration l := by
  intro l
  induction l with
  | nil => intro s s' _ _ h; injection h with h; rw [h]; rfl
  | cons x l ih =>
    intro s s' hi hv h
    obtain ⟨o, e⟩ := x
    obtain ⟨s1, h2, h3⟩ := bind_eq_ok.1 h
    have ho := hv _ (List.mem_cons_self ..)
    rw [lastProbe_cons, ← run_asks ho hi h2]
    exact ih (hi.micros (Demuxer.run_micros ho hi h2)) (fun x hx => hv x (List.mem_cons_of_mem _ hx)) h3

/-- **C65** the time to probe of a demuxer is what the last call of `SetProbeDuration` asked for, however it was called and whatever else was. -/
theorem C65_setting {name : String} {a : Bool} {h : List (Oracle × DemuxOp)} {s : Demuxer} (hr : Reached name a h s) :
    s.probeDuration = lastProbe 0 h := runDemux_asks h (Demuxer.Inv.new name a) hr.1 hr.2

/-- **C65** so when probing ends is a matter of the calls alone. -/
theorem C65_exact_calls {name : String} {a : Bool} {h : List (Oracle × DemuxOp)} {s s' : Demuxer} (hr : Reached name a h s)
    (hc : s.completed = false) {o : Oracle} (ho : o.Valid) {e : DemuxOp} (he : e.IsPacket) (h1 : e.run o s = ok s') :
    (taken s'.calls = taken s.calls ∧ s'.completed = false) ∨
    ∃ p, taken s'.calls = taken s.calls ++ [p] ∧
      (s'.completed = true ↔
        max (lastProbe 0 h) 200 ≤ bufferedMs o.undef (timed (laneBefore (lanes (taken s.calls)) p ++ [p]))) := by
  rw [← C65_setting hr]
  exact C65_exact hr hc ho he h1

/-- Set to a second, then to a quarter of it. -/
example : lastProbe 0 [(exOracle, .setProbeDuration 1000), (exOracle, .findBufferIndex 7), (exOracle, .setProbeDuration 250), (exOracle, .tryCompleteProbe)] = 250 ∧
    (runDemux (Demuxer.new "ts" true) [(exOracle, .setProbeDuration 1000), (exOracle, .findBufferIndex 7), (exOracle, .setProbeDuration 250)] >>=
      fun s => ok s.probeDuration) = ok 250 := by
  refine ⟨?_, ?_⟩ <;> decide +kernel

end Avf
