import Verif.Lemmas.DemuxerPanics
import Verif.Props.Demuxer
import Verif.Props.DemuxerTotal
/-! # C100: going on after a panic of the demuxer -/
namespace Avf
open Go

/-- **C100**: the states that panics leave agree with the model in which a panic ends the run: an operation ends with a result
exactly if it does there, and in the same state. -/
theorem C100_agrees {name : String} {a : Bool} {h : List (Oracle × DemuxOp)} {s : Demuxer} (hr : Reached name a h s) (o : Oracle)
    (ho : o.Valid) (e : DemuxOp) (s' : Demuxer) : e.runP .none o s = .done () s' ↔ e.run o s = ok s' := by
  rcases Demuxer.runP_none ho (Demuxer.Reached.inv hr) e with ⟨s1, h1, h2⟩ | ⟨h1, h2, _⟩
  · rw [h1, h2]
    constructor <;> intro he <;> cases he <;> rfl
  · rw [h2]
    exact ⟨fun he => (by cases he), fun he => absurd he (h1 s')⟩

/-- **C100**: a packet that makes the demuxer panic leaves it as it was, and its block has been discarded. -/
theorem C100_packet {name : String} {a : Bool} {h : List (Oracle × DemuxOp)} {s s' : Demuxer} (hr : Reached name a h s) (o : Oracle)
    (ho : o.Valid) (e : DemuxOp) (b : Int) (hb : e.packetBuffer = some b) (hp : e.runP .none o s = .panicked s') :
    s' = { s with calls := s.calls ++ [.discardBack b] } := by
  rcases Demuxer.runP_none ho (Demuxer.Reached.inv hr) e with ⟨s1, h1, h2⟩ | ⟨h1, h2, _⟩
  · rw [h2] at hp; cases hp
  · rw [h2] at hp
    injection hp with hp
    rw [← hp, Demuxer.dropped, hb]
    rfl

/-- **C100**: only packets and announcements can panic, and an announcement that panics leaves the demuxer as it was. -/
theorem C100_track {name : String} {a : Bool} {h : List (Oracle × DemuxOp)} {s s' : Demuxer} (hr : Reached name a h s) (o : Oracle)
    (ho : o.Valid) (e : DemuxOp) (hb : e.packetBuffer = none) (hp : e.runP .none o s = .panicked s') : e.IsTrack ∧ s' = s := by
  rcases Demuxer.runP_none ho (Demuxer.Reached.inv hr) e with ⟨s1, h1, h2⟩ | ⟨h1, h2, h3⟩
  · rw [h2] at hp; cases hp
  · rw [h2] at hp
    injection hp with hp
    refine ⟨?_, by rw [← hp, Demuxer.dropped, hb]⟩
    rcases h3 with h3 | ⟨b, h3, _⟩
    · exact h3
    · rw [hb] at h3; cases h3

/-- **C100**: however often the caller recovers from a panic, the demuxer is in a state of a history without panics: every packet
that made it panic is a packet that is refused, with the same payload on the same buffer, and every announcement that did is
left out. So everything that is proved of such histories holds. -/
theorem C100_history (name : String) (a : Bool) (h : List (Oracle × DemuxOp)) (hv : ∀ x ∈ h, x.1.Valid) :
    ∃ h', Substituted h h' ∧ Reached name a h' (runRecovering .none (Demuxer.new name a) h) := by
  have key : ∀ (l : List (Oracle × DemuxOp)) (s : Demuxer), Demuxer.Inv s → (∀ x ∈ l, x.1.Valid) →
      ∃ l', Substituted l l' ∧ (∀ x ∈ l', x.1.Valid) ∧ runDemux s l' = ok (runRecovering .none s l) := by
    intro l
    induction l with
    | nil => intro s _ _; exact ⟨[], .nil, by simp, rfl⟩
    | cons x l ih =>
      obtain ⟨o, e⟩ := x
      intro s hi hv
      have ho : o.Valid := hv (o, e) (by simp)
      have hl : ∀ x ∈ l, x.1.Valid := fun x hx => hv x (by simp [hx])
      unfold runRecovering
      rcases Demuxer.runP_none ho hi e with ⟨s1, h1, h2⟩ | ⟨h1, h2, h3⟩
      · rw [h2]
        obtain ⟨l', hs, hv', hr⟩ := ih s1 (hi.micros (Demuxer.run_micros ho hi h1)) hl
        refine ⟨(o, e) :: l', .keep _ hs, by simpa using ⟨ho, fun a b hx => hv' (a, b) hx⟩, ?_⟩
        show (e.run o s >>= fun s => runDemux s l') = _
        rw [h1]; exact hr
      · rw [h2]
        rcases h3 with h3 | ⟨b, hb, hfresh⟩
        · have hd : s.dropped e = s := by cases e <;> first | rfl | exact absurd h3 id
          dsimp only [Outcome.state]
          rw [hd]
          obtain ⟨l', hs, hv', hr⟩ := ih s hi hl
          exact ⟨l', .drop o e h3 hs, hv', hr⟩
        · have hd : s.dropped e = s.call [.discardBack b] := by rw [Demuxer.dropped, hb]
          dsimp only [Outcome.state]
          rw [hd]
          obtain ⟨id, hid⟩ := Demuxer.unknown_codec s
          have hblock : ∃ d, e.block = some (b, d) := by
            cases e <;> first | (cases hb; exact ⟨_, rfl⟩) | cases hb
          obtain ⟨d, hd⟩ := hblock
          obtain ⟨l', hs, hv', hr⟩ := ih (s.call [.discardBack b]) (hi.micro (.reject s b)) hl
          refine ⟨(o, .videoPacket b id d false 0 0) :: l', .packet o e b d id 0 0 hb hd hs,
            by simpa using ⟨ho, fun a b hx => hv' (a, b) hx⟩, ?_⟩
          show ((DemuxOp.videoPacket b id d false 0 0).run o s >>= fun s => runDemux s l') = _
          rw [Demuxer.unknown_refused ho hi hfresh hid]
          exact hr
  obtain ⟨h', hs, hv', hr⟩ := key h (Demuxer.new name a) (Demuxer.Inv.new name a) hv
  exact ⟨h', hs, hv', hr⟩

/-- Substitution in packet input changes no block and announces nothing. -/
theorem Substituted.blocks {h h' : List (Oracle × DemuxOp)} (hs : Substituted h h') (hp : ∀ x ∈ h, x.2.PacketOnly) :
    h'.map (fun x => x.2.block) = h.map (fun x => x.2.block) ∧ ∀ x ∈ h', x.2.PacketOnly := by
  induction hs with
  | nil => exact ⟨rfl, by simp⟩
  | keep x _ ih =>
    obtain ⟨i1, i2⟩ := ih fun y hy => hp y (by simp [hy])
    refine ⟨by simp [i1], fun y hy => ?_⟩
    rcases List.mem_cons.1 hy with rfl | hy
    · exact hp y (by simp)
    · exact i2 y hy
  | packet o e b d id dts pts hb hd _ ih =>
    obtain ⟨i1, i2⟩ := ih fun y hy => hp y (by simp [hy])
    refine ⟨by rw [List.map_cons, List.map_cons, i1, hd]; rfl, fun y hy => ?_⟩
    rcases List.mem_cons.1 hy with rfl | hy
    · trivial
    · exact i2 y hy
  | drop o e he _ ih =>
    exfalso
    have := hp (o, e) (by simp)
    cases e <;> first | exact this | exact he

/-- **C100**: for packet input the history without panics has the same blocks. -/
theorem C100_blocks (name : String) (a : Bool) (h : List (Oracle × DemuxOp)) (hv : ∀ x ∈ h, x.1.Valid) (hp : ∀ x ∈ h, x.2.PacketOnly) :
    ∃ h', h'.map (fun x => x.2.block) = h.map (fun x => x.2.block) ∧ (∀ x ∈ h', x.2.PacketOnly) ∧
      Reached name a h' (runRecovering .none (Demuxer.new name a) h) := by
  obtain ⟨h', hs, hr⟩ := C100_history name a h hv
  exact ⟨h', (hs.blocks hp).1, (hs.blocks hp).2, hr⟩

/-- **C100**: the handler is called in the order of C61 all the same. -/
theorem C100_order (name : String) (a : Bool) (h : List (Oracle × DemuxOp)) (hv : ∀ x ∈ h, x.1.Valid) :
    CallOrder (toHandler (runRecovering .none (Demuxer.new name a) h).calls) := by
  obtain ⟨h', _, hr⟩ := C100_history name a h hv
  exact C61_order hr

/-- **C100** in full: after every panic of an operation that brought a block, the block has been discarded. -/
def C100_claim : Prop :=
  ∀ name a h s, Reached name a h s → ∀ o, o.Valid → ∀ (e : DemuxOp) b d s', e.block = some (b, d) →
    e.runP .none o s = .panicked s' → ∃ l, s'.calls = s.calls ++ l ++ [.discardBack b]

/-- Nothing is deferred in `OnNewAudioTrack`: the block of a configuration of one byte stays. -/
theorem C100_claim_violated : ¬ C100_claim := by
  intro hc
  have hr : Reached "flv" true [] (Demuxer.new "flv" true) := ⟨by simp, rfl⟩
  have hx : (DemuxOp.newAudioTrack 0 codecAAC 1000 (some [0x12]) {}).run exOracle (Demuxer.new "flv" true) = Go.panic := by
    apply of_panics
    decide +kernel
  rcases Demuxer.runP_none exOracle_valid (Demuxer.Reached.inv hr) (.newAudioTrack 0 codecAAC 1000 (some [0x12]) {}) with ⟨s1, h1, _⟩ | ⟨_, h2, _⟩
  · rw [hx] at h1; cases h1
  · obtain ⟨l, hl⟩ := hc _ _ _ _ hr exOracle exOracle_valid _ 0 [0x12] _ rfl h2
    have : ([] : List Call) = [] ++ l ++ [.discardBack 0] := hl
    simp at this

/-- A key frame that is not framed comes first, the caller recovers, and the stream goes on. -/
def recoveredRun : List (Oracle × DemuxOp) :=
  (exOracle, .videoPacket 0 codecH264 [0, 0, 0] true 0 0) :: (soundRun ++ [(exOracle, .probeComplete)])

example : panics (runDemux (Demuxer.new "ts" true) recoveredRun) = true ∧
    (runRecovering .none (Demuxer.new "ts" true) recoveredRun).tracks.tracks.length = 3 ∧
    (delivered (runRecovering .none (Demuxer.new "ts" true) recoveredRun).calls).map AVPacket.data = [annexB exUnits] := by
  decide +kernel

end Avf
