import Verif.Lemmas.DemuxerPanics
import Verif.Spec.DemuxerReplay
/-! # Helper lemmas for C102: a run with panics is a part of the run without -/
namespace Avf
open Go

theorem Quiet.nil (f : Panicky) (cs : List Call) : Quiet f cs [] := by
  intro l c r h; simp at h

theorem Quiet.append {f : Panicky} {cs d e : List Call} (h1 : Quiet f cs d) (h2 : Quiet f (cs ++ d) e) : Quiet f cs (d ++ e) := by
  intro l c r h hc
  rcases List.append_eq_append_iff.1 h with ⟨a, e1, e2⟩ | ⟨a, e1, e2⟩
  · rw [e1, ← List.append_assoc]
    exact h2 a c r e2 hc
  · cases a with
    | nil =>
      rw [List.append_nil] at e1
      rw [← e1]
      have := h2 [] c r (by simpa using e2.symm) hc
      simpa using this
    | cons c' a =>
      injection e2 with e2 e3
      subst e2
      exact h1 l c a e1 hc

theorem Quiet.of_silent {f : Panicky} {cs d : List Call} (h : ∀ c ∈ d, c.isHandler = false) : Quiet f cs d := by
  intro l c r e hc
  rw [h c (by rw [e]; simp)] at hc
  cases hc

theorem Quiet.single {f : Panicky} {cs : List Call} {c : Call} (h : f.handler cs c = false) : Quiet f cs [c] := by
  intro l x r e _
  cases l with
  | nil => injection e with e _; subst e; simpa using h
  | cons a l => injection e with _ e; simp at e

/-- `x` does what `y` does, up to the first call at which the handler panics. -/
def Replays (f : Panicky) {α : Type} (x y : DM α) : Prop :=
  ∀ s, ∃ d, (y s).state.calls = s.calls ++ d ∧ (Quiet f s.calls d ∧ x s = y s ∨
    ∃ l c, FirstPanic f s.calls d l c ∧ ∃ s', x s = .panicked s' ∧ s'.calls = s.calls ++ (l ++ [c]))

namespace Replays
open DM

theorem bind {f : Panicky} {α β : Type} {x y : DM α} {g h : α → DM β} (h1 : Replays f x y) (h2 : ∀ a, Replays f (g a) (h a)) :
    Replays f (x >>= g) (y >>= h) := by
  intro s
  obtain ⟨d, hd, hor⟩ := h1 s
  rw [bind_apply, bind_apply]
  cases hy : y s with
  | panicked s1 =>
    rw [hy] at hd
    refine ⟨d, hd, ?_⟩
    rcases hor with ⟨q, e⟩ | ⟨l, c, hp, s', e, hs⟩
    · rw [e, hy]; exact Or.inl ⟨q, rfl⟩
    · rw [e]; exact Or.inr ⟨l, c, hp, s', rfl, hs⟩
  | done a s1 =>
    rw [hy] at hd
    obtain ⟨d2, hd2, hor2⟩ := h2 a s1
    have hd : s1.calls = s.calls ++ d := hd
    refine ⟨d ++ d2, by rw [hd2, hd, List.append_assoc], ?_⟩
    rcases hor with ⟨q, e⟩ | ⟨l, c, ⟨⟨r, hr⟩, hp⟩, s', e, hs⟩
    · rw [e, hy]
      dsimp only
      rw [hd] at hor2
      rcases hor2 with ⟨q2, e2⟩ | ⟨l, c, ⟨⟨r, hr⟩, hq, hc, hf⟩, s', e2, hs⟩
      · exact Or.inl ⟨q.append q2, e2⟩
      · refine Or.inr ⟨d ++ l, c, ⟨⟨r, by rw [hr, List.append_assoc]⟩, q.append hq, hc, by rw [← List.append_assoc]; exact hf⟩, s', e2, ?_⟩
        rw [hs]; simp
    · rw [e]
      exact Or.inr ⟨l, c, ⟨⟨r ++ d2, by rw [hr]; simp⟩, hp⟩, s', rfl, hs⟩

theorem same {f : Panicky} {α : Type} {x : DM α} (h : ∀ s, ∃ d, (x s).state.calls = s.calls ++ d ∧ ∀ c ∈ d, c.isHandler = false) : Replays f x x := by
  intro s
  obtain ⟨d, hd, hc⟩ := h s
  exact ⟨d, hd, Or.inl ⟨.of_silent hc, rfl⟩⟩

theorem silent {f : Panicky} {α : Type} {x : DM α} (h : ∀ s, (x s).state.calls = s.calls) : Replays f x x :=
  same fun s => ⟨[], by rw [h]; simp, by simp⟩

theorem get {f : Panicky} : Replays f DM.get DM.get := silent fun _ => rfl

theorem pure {f : Panicky} {α : Type} {a : α} : Replays f (Pure.pure a : DM α) (Pure.pure a) := silent fun _ => rfl

theorem panic {f : Panicky} {α : Type} : Replays f (DM.panic : DM α) DM.panic := silent fun _ => rfl

theorem modify {f : Panicky} {g : Demuxer → Demuxer} (h : ∀ s, (g s).calls = s.calls) : Replays f (DM.modify g) (DM.modify g) := silent h

theorem compute {f : Panicky} {α : Type} {x : Go α} : Replays f (DM.compute x) (DM.compute x) := silent fun s => by
  unfold DM.compute; cases x <;> rfl

theorem record {f : Panicky} {d : List Call} (h : ∀ c ∈ d, c.isHandler = false) :
    Replays f (DM.modify fun s => s.call d) (DM.modify fun s => s.call d) := same fun _ => ⟨d, rfl, h⟩

theorem ite {f : Panicky} {α : Type} {p : Prop} [Decidable p] {x x' y y' : DM α} (h1 : Replays f x y) (h2 : Replays f x' y') :
    Replays f (if p then x else x') (if p then y else y') := by
  split
  · exact h1
  · exact h2

theorem tell {f : Panicky} {c : Call} (hc : c.isHandler = true) : Replays f (DM.tell f c) (DM.tell .none c) := by
  intro s
  refine ⟨[c], rfl, ?_⟩
  rw [tell_none, DM.tell]
  by_cases hf : f.handler s.calls c = true
  · rw [if_pos hf]
    exact Or.inr ⟨[], c, ⟨⟨[], rfl⟩, .nil _ _, hc, by simpa using hf⟩, _, rfl, rfl⟩
  · rw [if_neg hf]
    exact Or.inl ⟨.single (by simpa using hf), rfl⟩

theorem tellAll {f : Panicky} {cs : List Call} (h : ∀ c ∈ cs, c.isHandler = true) : Replays f (DM.tellAll f cs) (DM.tellAll .none cs) := by
  induction cs with
  | nil => exact pure
  | cons c cs ih => exact bind (tell (h c (by simp))) fun _ => ih fun x hx => h x (by simp [hx])

end Replays

namespace Demuxer
open DM

theorem forwardPacketP_sim (f : Panicky) (p : AVPacket) : Replays f (forwardPacketP f p) (forwardPacketP .none p) := by
  unfold forwardPacketP
  refine .bind (.tell rfl) fun _ => .bind .get fun s => .ite ?_ .pure
  cases s.bufferOf.lookup p.index with
  | none => exact .panic
  | some b => exact .record (by simp [Call.isHandler])

theorem forwardAllP_sim (f : Panicky) (ps : List AVPacket) : Replays f (forwardAllP f ps) (forwardAllP .none ps) := by
  induction ps with
  | nil => exact .pure
  | cons p ps ih => exact .bind (forwardPacketP_sim f p) fun _ => ih

theorem prepareTracksP_calls (u : Int) (s : Demuxer) : (prepareTracksP u s).state.calls = s.calls := by
  unfold prepareTracksP
  rw [prepare_eq]
  rfl

theorem onProbeCompleteP_sim (f : Panicky) (o : Oracle) : Replays f (onProbeCompleteP f o) (onProbeCompleteP .none o) := by
  unfold onProbeCompleteP
  refine .bind .get fun s => .ite .pure (.bind (.modify fun _ => rfl) fun _ => .ite (.tell rfl) ?_)
  refine .bind (.silent (prepareTracksP_calls o.undef)) fun _ => .bind .get fun s => .bind (.tellAll ?_) fun _ => ?_
  · intro c hc
    obtain ⟨t, _, rfl⟩ := List.mem_map.1 hc
    rfl
  · exact .bind (.tell rfl) fun _ => .bind .get fun s => .bind (.modify fun _ => rfl) fun _ => forwardAllP_sim f _

theorem enqueueP_sim (f : Panicky) (o : Oracle) (i : Int) (p : AVPacket) : Replays f (enqueueP f o i p) (enqueueP .none o i p) := by
  unfold enqueueP
  refine .bind .get fun s => .bind .compute fun q => .bind (.modify fun _ => rfl) fun _ => .ite .pure ?_
  refine .bind .compute fun pp => .bind (.modify fun _ => rfl) fun _ => .ite ?_ (.ite (onProbeCompleteP_sim f o) .pure)
  exact .bind .compute fun x => .bind (.modify fun _ => rfl) fun _ => forwardPacketP_sim f x

theorem processP_sim (f : Panicky) (o : Oracle) (p : AVPacket) : Replays f (processBufferedPacketP f o p) (processBufferedPacketP .none o p) := by
  unfold processBufferedPacketP
  exact .bind .get fun s => .ite (enqueueP_sim f o _ p) (.bind (.modify fun _ => rfl) fun _ => enqueueP_sim f o _ p)

theorem register_calls (s : Demuxer) (b : Int) (t : AVStream) : (s.register b t).2.calls = s.calls := by
  unfold register addTrack
  by_cases hc : s.completed = true
  · rw [if_pos hc]; rfl
  · rw [if_neg hc]
    simp only [TrackManager.add]
    split <;> rfl

theorem createAudioTrack_calls {s s' : Demuxer} {b id tb : Int} {e : Option Bytes} {c : AudioConfig} {t : Option AVStream}
    (h : s.createAudioTrack b id tb e c = ok (t, s')) : s'.calls = s.calls := by
  unfold createAudioTrack at h
  dsimp only at h
  split at h
  · split at h
    · cases h
    · split at h
      · cases h; rfl
      · cases h
      · injection h with h; rw [← register_calls s b, h]
  · injection h with h; rw [← register_calls s b, h]

theorem createVideoTrack_calls {o : Oracle} {s s' : Demuxer} {b id tb : Int} {e : Option Bytes} {t : Option AVStream}
    (h : s.createVideoTrack o b id tb e = ok (t, s')) : s'.calls = s.calls := by
  unfold createVideoTrack at h
  dsimp only at h
  split at h
  · cases h; rfl
  · cases h
  · injection h with h; rw [← register_calls s b, h]

theorem audioFront_calls {o : Oracle} {s s' : Demuxer} {b id : Int} {d : Bytes} {t : Option AVStream}
    (h : audioFront o s b id d = ok (t, s')) : s'.calls = s.calls := by
  unfold audioFront at h
  obtain ⟨t0, _, h⟩ := bind_eq_ok.1 h
  split at h
  · split at h
    · cases h; rfl
    · cases h
    · obtain ⟨tb, _, h⟩ := bind_eq_ok.1 h
      exact createAudioTrack_calls h
  · cases h; rfl

theorem videoFront_calls {o : Oracle} {s s' : Demuxer} {b id : Int} {d : Bytes} {k : Bool} {t : Option AVStream}
    (h : videoFront o s b id d k = ok (t, s')) : s'.calls = s.calls := by
  unfold videoFront at h
  obtain ⟨t0, _, h⟩ := bind_eq_ok.1 h
  split at h
  · obtain ⟨x, _, h⟩ := bind_eq_ok.1 h
    split at h
    · obtain ⟨tb, _, h⟩ := bind_eq_ok.1 h
      exact createVideoTrack_calls h
    · cases h; rfl
  · cases h; rfl

theorem ofGo_calls {α : Type} {s : Demuxer} {x : Go (α × Demuxer)} (h : ∀ a s', x = ok (a, s') → s'.calls = s.calls) :
    (Outcome.ofGo s x).state.calls = s.calls := by
  cases x with
  | ok y => obtain ⟨a, s'⟩ := y; exact h a s' rfl
  | err m => rfl
  | panic => rfl

theorem deferred_sim {α : Type} (f : Panicky) (b : Int) (x : DM α) (h : ∀ s, (x s).state.calls = s.calls) : Replays f (deferred b x) (deferred b x) := by
  refine .same fun s => ?_
  unfold deferred
  have := h s
  cases hx : x s with
  | done a s' => rw [hx] at this; exact ⟨[], by simpa [Outcome.state] using this, by simp⟩
  | panicked s' =>
    rw [hx] at this
    exact ⟨[.discardBack b], by simpa [Outcome.state, call] using this, by simp [Call.isHandler]⟩

/-- **C102**, one operation. -/
theorem runP_sim (f : Panicky) (hp : ∀ p, f.preprocess p = false) (o : Oracle) (e : DemuxOp) : Replays f (e.runP f o) (e.runP .none o) := by
  cases e with
  | findBufferIndex m =>
    refine .modify fun s => ?_
    unfold findBufferIndex; split <;> rfl
  | setProbeDuration n => exact .modify fun _ => rfl
  | probeComplete => exact onProbeCompleteP_sim f o
  | tryCompleteProbe =>
    simp only [DemuxOp.runP]
    unfold tryCompleteProbeP
    exact .bind .get fun s => .ite .pure (onProbeCompleteP_sim f o)
  | newAudioTrack b id tb e c =>
    simp only [DemuxOp.runP]
    refine .bind ?_ fun _ => .pure
    unfold onNewAudioTrackP
    refine .bind .get fun s => .bind (.ite (.silent fun s => ?_) .pure) fun t => .ite (.bind (.record (by simp [Call.isHandler])) fun _ => .pure) .pure
    rw [createAudioTrackP_eq]; exact ofGo_calls fun _ _ h => createAudioTrack_calls h
  | newVideoTrack b id tb e =>
    simp only [DemuxOp.runP]
    refine .bind ?_ fun _ => .pure
    unfold onNewVideoTrackP
    refine .bind .get fun s => .bind (.ite (.silent fun s => ?_) .pure) fun t => .ite (.bind (.record (by simp [Call.isHandler])) fun _ => .pure) .pure
    rw [createVideoTrackP_eq]; exact ofGo_calls fun _ _ h => createVideoTrack_calls h
  | audioPacket b id d ts =>
    simp only [DemuxOp.runP]
    unfold onAudioPacketP
    refine .bind (deferred_sim f b _ fun s => ?_) fun t => ?_
    · rw [audioTrackP_eq]; exact ofGo_calls fun _ _ h => audioFront_calls h
    · cases t with
      | none => exact .record (by simp [Call.isHandler])
      | some t => exact .bind (.record (by simp [Call.isHandler])) fun _ => processP_sim f o _
  | videoPacket b id d k dts pts =>
    simp only [DemuxOp.runP]
    unfold onVideoPacketP
    refine .bind (deferred_sim f b _ fun s => ?_) fun t => ?_
    · rw [videoTrackP_eq]; exact ofGo_calls fun _ _ h => videoFront_calls h
    · cases t with
      | none => exact .record (by simp [Call.isHandler])
      | some t =>
        refine .bind .get fun s => ?_
        dsimp only
        rw [if_neg (by rw [hp]; simp), if_neg (by simp [Panicky.none])]
        exact .bind (.record (by simp [Call.isHandler])) fun _ => processP_sim f o _

end Demuxer
/-- At most `n` calls of the handler while probing has ended. -/
def FewCalls (n : Nat) {α : Type} (x : DM α) : Prop :=
  ∀ s, s.completed = true → (x s).state.completed = true ∧ ∃ d, (x s).state.calls = s.calls ++ d ∧ (d.filter Call.isHandler).length ≤ n

namespace FewCalls

theorem bind {n m : Nat} {α β : Type} {x : DM α} {g : α → DM β} (h1 : FewCalls n x) (h2 : ∀ a, FewCalls m (g a)) :
    FewCalls (n + m) (x >>= g) := by
  intro s hc
  obtain ⟨c1, d1, e1, l1⟩ := h1 s hc
  rw [DM.bind_apply]
  cases hx : x s with
  | panicked s1 => rw [hx] at c1 e1; exact ⟨c1, d1, e1, by omega⟩
  | done a s1 =>
    rw [hx] at c1 e1
    obtain ⟨c2, d2, e2, l2⟩ := h2 a s1 c1
    refine ⟨c2, d1 ++ d2, ?_, ?_⟩
    · have e1 : s1.calls = s.calls ++ d1 := e1
      rw [e2, e1, List.append_assoc]
    · rw [List.filter_append, List.length_append]; omega

theorem then_ {m : Nat} {α β : Type} {x : DM α} {g : α → DM β} (h1 : FewCalls 0 x) (h2 : ∀ a, FewCalls m (g a)) : FewCalls m (x >>= g) := by
  have := bind h1 h2
  rwa [Nat.zero_add] at this

theorem mono {n m : Nat} {α : Type} {x : DM α} (h : FewCalls n x) (hnm : n ≤ m) : FewCalls m x := fun s hc => by
  obtain ⟨c, d, e, l⟩ := h s hc
  exact ⟨c, d, e, by omega⟩

theorem ite {n : Nat} {α : Type} {p : Prop} [Decidable p] {x y : DM α} (h1 : FewCalls n x) (h2 : FewCalls n y) : FewCalls n (if p then x else y) := by
  split
  · exact h1
  · exact h2

theorem get : FewCalls 0 DM.get := fun _ hc => ⟨hc, [], by simp [DM.get, Outcome.state], by simp⟩

theorem pure {n : Nat} {α : Type} {a : α} : FewCalls n (Pure.pure a : DM α) := fun s hc => ⟨hc, [], by rw [DM.pure_apply]; simp [Outcome.state], by simp⟩

theorem panic {n : Nat} {α : Type} : FewCalls n (DM.panic : DM α) := fun _ hc => ⟨hc, [], by simp [DM.panic, Outcome.state], by simp⟩

theorem compute {α : Type} {x : Go α} : FewCalls 0 (DM.compute x) := fun s hc => by
  unfold DM.compute
  cases x <;> exact ⟨hc, [], by simp [Outcome.state], by simp⟩

theorem modify {g : Demuxer → Demuxer} (h : ∀ s, (g s).calls = s.calls ∧ (g s).completed = s.completed) : FewCalls 0 (DM.modify g) :=
  fun s hc => ⟨(h s).2.trans hc, [], by rw [List.append_nil]; exact (h s).1, by simp⟩

theorem record {n : Nat} {d : List Call} (h : (d.filter Call.isHandler).length ≤ n) : FewCalls n (DM.modify fun s => s.call d) :=
  fun _ hc => ⟨hc, d, rfl, h⟩

theorem forward (p : AVPacket) : FewCalls 1 (Demuxer.forwardPacketP .none p) := by
  unfold Demuxer.forwardPacketP
  refine bind (n := 1) (m := 0) (record (n := 1) (d := [.packet p]) (Nat.le_refl 1)) fun _ => then_ get fun s => ite ?_ pure
  cases s.bufferOf.lookup p.index with
  | none => exact panic
  | some b => exact record (d := [.discardHead b, .free p]) (by simp [Call.isHandler])

theorem complete (o : Oracle) : FewCalls 0 (Demuxer.onProbeCompleteP .none o) := by
  intro s hc
  unfold Demuxer.onProbeCompleteP
  rw [DM.get_bind, if_pos hc]
  exact ⟨hc, [], by rw [DM.pure_apply]; simp [Outcome.state], by simp⟩

theorem enqueue (o : Oracle) (i : Int) (p : AVPacket) : FewCalls 1 (Demuxer.enqueueP .none o i p) := by
  unfold Demuxer.enqueueP
  refine then_ get fun s => then_ compute fun q => then_ (modify fun _ => ⟨rfl, rfl⟩) fun _ => ite pure ?_
  refine then_ compute fun pp => then_ (modify fun _ => ⟨rfl, rfl⟩) fun _ => ite ?_ (ite ((complete o).mono (by omega)) pure)
  exact then_ compute fun x => then_ (modify fun _ => ⟨rfl, rfl⟩) fun _ => forward x

theorem process (o : Oracle) (p : AVPacket) : FewCalls 1 (Demuxer.processBufferedPacketP .none o p) := by
  unfold Demuxer.processBufferedPacketP
  exact then_ get fun s => ite (enqueue o _ p) (then_ (modify fun _ => ⟨rfl, rfl⟩) fun _ => enqueue o _ p)

theorem registered {s : Demuxer} (hc : s.completed = true) (b : Int) (t : AVStream) : (s.register b t).2 = s := by
  unfold Demuxer.register Demuxer.addTrack
  rw [if_pos hc]; rfl

theorem audioTrack (b id tb : Int) (e : Option Bytes) (c : AudioConfig) : FewCalls 0 (Demuxer.createAudioTrackP b id tb e c) := by
  unfold Demuxer.createAudioTrackP
  have reg : ∀ t, FewCalls 0 (Demuxer.registerP b t) := fun t s hc => by
    unfold Demuxer.registerP
    dsimp only [Outcome.state]
    rw [registered hc]
    exact ⟨hc, [], by simp, by simp⟩
  refine then_ get fun s => ite ?_ (reg _)
  cases e with
  | none => exact panic
  | some d => dsimp only; cases parseMpeg4AudioConfig d <;> first | exact pure | exact panic | exact reg _

theorem videoTrack (o : Oracle) (b id tb : Int) (e : Option Bytes) : FewCalls 0 (Demuxer.createVideoTrackP o b id tb e) := by
  unfold Demuxer.createVideoTrackP
  refine then_ get fun s => ?_
  dsimp only
  cases generateVideoCodecData o.undef o.grow s.getPackType id (e.getD []) with
  | ok x =>
    intro s hc
    unfold Demuxer.registerP
    dsimp only [Outcome.state]
    rw [registered hc]
    exact ⟨hc, [], by simp, by simp⟩
  | err m => exact pure
  | panic => exact panic

theorem deferred {α : Type} {b : Int} {x : DM α} (h : FewCalls 0 x) : FewCalls 0 (DM.deferred b x) := by
  intro s hc
  obtain ⟨c, d, e, l⟩ := h s hc
  unfold DM.deferred
  cases hx : x s with
  | done a s1 => rw [hx] at c e; exact ⟨c, d, e, l⟩
  | panicked s1 =>
    rw [hx] at c e
    have e : s1.calls = s.calls ++ d := e
    refine ⟨c, d ++ [.discardBack b], ?_, ?_⟩
    · show s1.calls ++ _ = _
      rw [e, List.append_assoc]
    · rw [List.filter_append, List.length_append]
      exact l

theorem run (o : Oracle) (e : DemuxOp) : FewCalls 1 (e.runP .none o) := by
  cases e with
  | findBufferIndex m =>
    refine (modify fun s => ?_).mono (by omega)
    unfold Demuxer.findBufferIndex; split <;> exact ⟨rfl, rfl⟩
  | setProbeDuration n => exact (modify fun _ => ⟨rfl, rfl⟩).mono (by omega)
  | probeComplete => exact (complete o).mono (by omega)
  | tryCompleteProbe =>
    simp only [DemuxOp.runP]
    unfold Demuxer.tryCompleteProbeP
    exact then_ get fun s => ite pure ((complete o).mono (by omega))
  | newAudioTrack b id tb e c =>
    simp only [DemuxOp.runP]
    unfold Demuxer.onNewAudioTrackP
    exact then_ (then_ get fun s => then_ (ite (audioTrack _ _ _ _ _) pure) fun t => ite (then_ (record (by simp [Call.isHandler])) fun _ => pure) pure) fun _ => pure
  | newVideoTrack b id tb e =>
    simp only [DemuxOp.runP]
    unfold Demuxer.onNewVideoTrackP
    exact then_ (then_ get fun s => then_ (ite (videoTrack _ _ _ _ _) pure) fun t => ite (then_ (record (by simp [Call.isHandler])) fun _ => pure) pure) fun _ => pure
  | audioPacket b id d ts =>
    simp only [DemuxOp.runP]
    unfold Demuxer.onAudioPacketP
    refine then_ (deferred ?_) fun t => ?_
    · unfold Demuxer.audioTrackP
      refine then_ get fun s => then_ compute fun t => ite ?_ pure
      cases extractAudioExtraData id d with
      | ok x => obtain ⟨e, _, c⟩ := x; exact then_ compute fun tb => audioTrack _ _ _ _ _
      | err m => exact pure
      | panic => exact panic
    · cases t with
      | none => exact record (by simp [Call.isHandler])
      | some t => exact then_ (record (by simp [Call.isHandler])) fun _ => process o _
  | videoPacket b id d k dts pts =>
    simp only [DemuxOp.runP]
    unfold Demuxer.onVideoPacketP
    refine then_ (deferred ?_) fun t => ?_
    · unfold Demuxer.videoTrackP
      refine then_ get fun s => then_ compute fun t => ite (then_ compute fun x => ?_) pure
      cases x with
      | none => exact pure
      | some e => exact then_ compute fun tb => videoTrack _ _ _ _ _
    · cases t with
      | none => exact record (by simp [Call.isHandler])
      | some t =>
        refine then_ get fun s => ?_
        dsimp only
        rw [if_neg (by simp [Panicky.none])]
        exact then_ (record (by simp [Call.isHandler])) fun _ => process o _

end FewCalls

end Avf
