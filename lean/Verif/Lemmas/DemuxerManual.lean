import Verif.Lemmas.DemuxerReplay
import Verif.Lemmas.DemuxerFaults
import Verif.Spec.DemuxerManual
/-! # Helper lemmas for C103: `AutoFree` makes no difference to anything but the releases -/
namespace Avf
open Go

/-- Calls without releases. -/
def unreleased : List Call → List Call :=
  List.filter fun c => match c with
    | .discardHead _ | .free _ => false
    | _ => true

namespace Demuxer

/-- The demuxer without `AutoFree`. -/
def manual (s : Demuxer) : Demuxer := { s with autoFree := false, calls := unreleased s.calls }

end Demuxer

/-- The outcome without `AutoFree`. -/
def Outcome.manual {α : Type} : Outcome α → Outcome α
  | .done a s => .done a s.manual
  | .panicked s => .panicked s.manual

/-- `x` does the same without `AutoFree`, unless it panics after a delivery. -/
def Hom {α : Type} (x : DM α) : Prop :=
  ∀ s, (delivered s.calls).length ≤ (delivered (x s).state.calls).length ∧
    (x s.manual = (x s).manual ∨ ∃ s', x s = .panicked s' ∧ (delivered s.calls).length < (delivered s'.calls).length)

/-- The same for a function of the demuxer. -/
def Commutes (g : Demuxer → Demuxer) : Prop := ∀ s, (g s).manual = g s.manual ∧ (delivered s.calls).length ≤ (delivered (g s).calls).length

namespace Hom
open DM

theorem bind {α β : Type} {x : DM α} {g : α → DM β} (h1 : Hom x) (h2 : ∀ a, Hom (g a)) : Hom (x >>= g) := by
  intro s
  obtain ⟨m1, hor⟩ := h1 s
  rw [bind_apply, bind_apply]
  cases hx : x s with
  | panicked s1 =>
    rw [hx] at m1 hor
    refine ⟨m1, ?_⟩
    rcases hor with hor | ⟨s', e, hl⟩
    · rw [hor]; exact Or.inl rfl
    · injection e with e; subst e; exact Or.inr ⟨_, rfl, hl⟩
  | done a s1 =>
    rw [hx] at m1 hor
    obtain ⟨m2, hor2⟩ := h2 a s1
    refine ⟨Nat.le_trans m1 m2, ?_⟩
    rcases hor with hor | ⟨s', e, _⟩
    · rw [hor]
      rcases hor2 with hor2 | ⟨s', e, hl⟩
      · exact Or.inl hor2
      · exact Or.inr ⟨s', e, Nat.lt_of_le_of_lt m1 hl⟩
    · cases e

/-- Reading the demuxer, when what follows does not look at `AutoFree` or the calls. -/
theorem get_bind' {β : Type} {g : Demuxer → DM β} (h : ∀ s, Hom (g s)) (he : ∀ s, g s.manual = g s) : Hom (DM.get >>= g) := by
  intro s
  rw [get_bind, get_bind, he]
  exact h s s

theorem pure {α : Type} {a : α} : Hom (Pure.pure a : DM α) := fun _ => ⟨Nat.le_refl _, Or.inl rfl⟩

theorem panic {α : Type} : Hom (DM.panic : DM α) := fun _ => ⟨Nat.le_refl _, Or.inl rfl⟩

theorem compute {α : Type} {x : Go α} : Hom (DM.compute x) := fun s => by
  unfold DM.compute
  cases x <;> exact ⟨Nat.le_refl _, Or.inl rfl⟩

theorem modify {g : Demuxer → Demuxer} (h : Commutes g) : Hom (DM.modify g) := fun s => by
  refine ⟨(h s).2, Or.inl ?_⟩
  show Outcome.done () (g s.manual) = .done () (g s).manual
  rw [(h s).1]

theorem ite {α : Type} {p : Prop} [Decidable p] {x y : DM α} (h1 : Hom x) (h2 : Hom y) : Hom (if p then x else y) := by
  split
  · exact h1
  · exact h2

theorem call_commutes (d : List Call) (h : unreleased d = d) : Commutes (fun s => s.call d) := fun s => by
  refine ⟨?_, ?_⟩
  · unfold Demuxer.manual Demuxer.call
    simp only
    rw [show unreleased (s.calls ++ d) = unreleased s.calls ++ unreleased d from List.filter_append .., h]
  · show _ ≤ (delivered (s.calls ++ d)).length
    rw [Demuxer.delivered_append, List.length_append]
    omega

theorem tell {c : Call} (h : unreleased [c] = [c]) : Hom (DM.tell .none c) := modify (call_commutes [c] h)

theorem tellAll {cs : List Call} (h : ∀ c ∈ cs, unreleased [c] = [c]) : Hom (DM.tellAll .none cs) := by
  induction cs with
  | nil => exact pure
  | cons c cs ih => exact bind (tell (h c (by simp))) fun _ => ih fun x hx => h x (by simp [hx])

theorem forward (p : AVPacket) : Hom (Demuxer.forwardPacketP .none p) := by
  intro s
  unfold Demuxer.forwardPacketP
  rw [bind_apply, bind_apply, tell_none, tell_none]
  dsimp only
  rw [get_bind, get_bind]
  have hman : (s.call [.packet p]).manual = s.manual.call [.packet p] := (call_commutes [.packet p] rfl s).1
  have hl : (delivered s.calls).length < (delivered (s.call [.packet p]).calls).length := by
    show _ < (delivered (s.calls ++ [.packet p])).length
    rw [Demuxer.delivered_append, List.length_append]
    show _ < _ + 1
    omega
  rw [if_neg (show ¬ (s.manual.call [.packet p]).autoFree = true by simp [Demuxer.manual, Demuxer.call])]
  by_cases ha : (s.call [.packet p]).autoFree = true
  · rw [if_pos ha]
    cases hb : (s.call [.packet p]).bufferOf.lookup p.index with
    | none => exact ⟨Nat.le_of_lt hl, Or.inr ⟨_, rfl, hl⟩⟩
    | some b =>
      refine ⟨?_, Or.inl ?_⟩
      · show _ ≤ (delivered ((s.call [.packet p]).calls ++ [.discardHead b, .free p])).length
        rw [Demuxer.delivered_append, List.length_append]
        omega
      · show Outcome.done () _ = .done () _
        congr 1
        rw [← hman]
        unfold Demuxer.manual Demuxer.call
        simp only
        congr 1
        rw [show ∀ d : List Call, unreleased (d ++ [.discardHead b, .free p]) = unreleased d from fun d => by
          unfold unreleased; rw [List.filter_append]; simp]
  · rw [if_neg ha]
    refine ⟨Nat.le_of_lt hl, Or.inl ?_⟩
    show Outcome.done () _ = .done () _
    rw [hman]

theorem forwardAll (ps : List AVPacket) : Hom (Demuxer.forwardAllP .none ps) := by
  induction ps with
  | nil => exact pure
  | cons p ps ih => exact bind (forward p) fun _ => ih

theorem prepare (u : Int) : Hom (Demuxer.prepareTracksP u) := by
  intro s
  unfold Demuxer.prepareTracksP
  rw [Demuxer.prepare_eq, Demuxer.prepare_eq]
  exact ⟨Nat.le_refl _, Or.inl rfl⟩

theorem complete (o : Oracle) : Hom (Demuxer.onProbeCompleteP .none o) := by
  unfold Demuxer.onProbeCompleteP
  refine get_bind' (fun s => ite pure (bind (modify fun _ => ⟨rfl, Nat.le_refl _⟩) fun _ => ite (tell rfl) (bind (prepare _) fun _ => ?_))) fun _ => rfl
  refine get_bind' (fun s => bind (tellAll ?_) fun _ => bind (tell rfl) fun _ => ?_) fun _ => rfl
  · intro c hc
    obtain ⟨t, _, rfl⟩ := List.mem_map.1 hc
    rfl
  · exact get_bind' (fun s => bind (modify fun _ => ⟨rfl, Nat.le_refl _⟩) fun _ => forwardAll _) fun _ => rfl

theorem enqueue (o : Oracle) (i : Int) (p : AVPacket) : Hom (Demuxer.enqueueP .none o i p) := by
  unfold Demuxer.enqueueP
  refine get_bind' (fun s => bind compute fun q => bind (modify fun _ => ⟨rfl, Nat.le_refl _⟩) fun _ => ite pure ?_) fun _ => rfl
  refine bind compute fun pp => bind (modify fun _ => ⟨rfl, Nat.le_refl _⟩) fun _ => ite ?_ (ite (complete o) pure)
  exact bind compute fun x => bind (modify fun _ => ⟨rfl, Nat.le_refl _⟩) fun _ => forward x

theorem process (o : Oracle) (p : AVPacket) : Hom (Demuxer.processBufferedPacketP .none o p) := by
  unfold Demuxer.processBufferedPacketP
  exact get_bind' (fun s => ite (enqueue o _ p) (bind (modify fun _ => ⟨rfl, Nat.le_refl _⟩) fun _ => enqueue o _ p)) fun _ => rfl

theorem register (b : Int) (t : AVStream) : Hom (Demuxer.registerP b t) := by
  intro s
  unfold Demuxer.registerP
  have h : (s.manual.register b t).1 = (s.register b t).1 ∧ (s.manual.register b t).2 = (s.register b t).2.manual := by
    unfold Demuxer.register Demuxer.addTrack
    by_cases hc : s.completed = true
    · rw [if_pos hc, if_pos (show s.manual.completed = true from hc)]; exact ⟨rfl, rfl⟩
    · rw [if_neg hc, if_neg (show ¬ s.manual.completed = true from hc)]
      simp only [TrackManager.add]
      exact ⟨rfl, rfl⟩
  rw [h.1, h.2]
  refine ⟨?_, Or.inl rfl⟩
  show _ ≤ (delivered (s.register b t).2.calls).length
  rw [Demuxer.register_calls]

theorem audioTrack (b id tb : Int) (e : Option Bytes) (c : AudioConfig) : Hom (Demuxer.createAudioTrackP b id tb e c) := by
  unfold Demuxer.createAudioTrackP
  refine get_bind' (fun s => ite ?_ (register _ _)) fun _ => rfl
  cases e with
  | none => exact panic
  | some d => dsimp only; cases parseMpeg4AudioConfig d <;> first | exact pure | exact panic | exact register _ _

theorem videoTrack (o : Oracle) (b id tb : Int) (e : Option Bytes) : Hom (Demuxer.createVideoTrackP o b id tb e) := by
  unfold Demuxer.createVideoTrackP
  refine get_bind' (fun s => ?_) fun _ => rfl
  dsimp only
  cases generateVideoCodecData o.undef o.grow s.getPackType id (e.getD []) with
  | ok x => exact register _ _
  | err m => exact pure
  | panic => exact panic

theorem deferred {α : Type} {b : Int} {x : DM α} (h : Hom x) : Hom (DM.deferred b x) := by
  intro s
  obtain ⟨m, hor⟩ := h s
  have hd : ∀ s1 : Demuxer, delivered (s1.call [.discardBack b]).calls = delivered s1.calls := fun s1 => Demuxer.delivered_reject _ _
  unfold DM.deferred
  cases hx : x s with
  | done a s1 =>
    rw [hx] at m hor
    refine ⟨m, ?_⟩
    rcases hor with hor | ⟨s', e, _⟩
    · rw [hor]; exact Or.inl rfl
    · cases e
  | panicked s1 =>
    rw [hx] at m hor
    refine ⟨by show _ ≤ (delivered (s1.call [.discardBack b]).calls).length; rw [hd]; exact m, ?_⟩
    rcases hor with hor | ⟨s', e, hl⟩
    · rw [hor]
      left
      show Outcome.panicked _ = .panicked _
      rw [(call_commutes [.discardBack b] rfl s1).1]
    · injection e with e
      subst e
      exact Or.inr ⟨_, rfl, by rw [hd]; exact hl⟩

theorem run (o : Oracle) (e : DemuxOp) : Hom (e.runP .none o) := by
  cases e with
  | findBufferIndex m =>
    refine modify fun s => ?_
    show (s.findBufferIndex m).2.manual = (s.manual.findBufferIndex m).2 ∧ _
    unfold Demuxer.findBufferIndex
    rw [show s.manual.orderedStreams = s.orderedStreams from rfl]
    cases s.orderedStreams.findIdx? (fun x => m = x) <;> exact ⟨rfl, Nat.le_refl _⟩
  | setProbeDuration n => exact modify fun _ => ⟨rfl, Nat.le_refl _⟩
  | probeComplete => exact complete o
  | tryCompleteProbe =>
    simp only [DemuxOp.runP]
    unfold Demuxer.tryCompleteProbeP
    exact get_bind' (fun s => ite pure (complete o)) fun _ => rfl
  | newAudioTrack b id tb e c =>
    simp only [DemuxOp.runP]
    unfold Demuxer.onNewAudioTrackP
    exact bind (get_bind' (fun s => bind (ite (audioTrack _ _ _ _ _) pure) fun t => ite (bind (modify (call_commutes _ rfl)) fun _ => pure) pure) fun _ => rfl) fun _ => pure
  | newVideoTrack b id tb e =>
    simp only [DemuxOp.runP]
    unfold Demuxer.onNewVideoTrackP
    exact bind (get_bind' (fun s => bind (ite (videoTrack _ _ _ _ _) pure) fun t => ite (bind (modify (call_commutes _ rfl)) fun _ => pure) pure) fun _ => rfl) fun _ => pure
  | audioPacket b id d ts =>
    simp only [DemuxOp.runP]
    unfold Demuxer.onAudioPacketP
    refine bind (deferred ?_) fun t => ?_
    · unfold Demuxer.audioTrackP
      refine get_bind' (fun s => bind compute fun t => ite ?_ pure) fun _ => rfl
      cases extractAudioExtraData id d with
      | ok x => obtain ⟨e, _, c⟩ := x; exact bind compute fun tb => audioTrack _ _ _ _ _
      | err m => exact pure
      | panic => exact panic
    · cases t with
      | none => exact modify (call_commutes _ rfl)
      | some t => exact bind (modify (call_commutes _ rfl)) fun _ => process o _
  | videoPacket b id d k dts pts =>
    simp only [DemuxOp.runP]
    unfold Demuxer.onVideoPacketP
    refine bind (deferred ?_) fun t => ?_
    · unfold Demuxer.videoTrackP
      refine get_bind' (fun s => bind compute fun t => ite (bind compute fun x => ?_) pure) fun _ => rfl
      cases x with
      | none => exact pure
      | some e => exact bind compute fun tb => videoTrack _ _ _ _ _
    · cases t with
      | none => exact modify (call_commutes _ rfl)
      | some t =>
        refine get_bind' (fun s => ?_) fun _ => rfl
        dsimp only
        rw [if_neg (by simp [Panicky.none])]
        exact bind (modify (call_commutes _ rfl)) fun _ => process o _

end Hom

theorem GivenBack.eq {cs : List Call} (h : GivenBack .none cs) : cs = giveBack (unreleased cs) := by
  induction h with
  | nil => rfl
  | other cs c hp hr hf _ ih =>
    unfold unreleased giveBack at *
    rw [List.filter_append, List.flatMap_append, ← ih]
    cases c <;> first | rfl | (cases hp; done) | (cases hr; done) | (cases hf; done)
  | failed cs p hf _ ih => cases hf
  | released cs p hf _ ih =>
    unfold unreleased giveBack at *
    rw [List.filter_append, List.flatMap_append, ← ih]
    rfl

end Avf
