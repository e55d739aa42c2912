import Verif.Lemmas.DemuxerFaults
import Verif.Props.DemuxerPanics
/-! # C101: handlers that panic -/
namespace Avf
open Go

theorem Demuxer.Loose.new (name : String) (a : Bool) : Demuxer.Loose (Demuxer.new name a) := (Demuxer.Inv.new name a).loose

/-- Induction over the steps of a history with any handler. -/
theorem recovering_induct {P : Demuxer → Prop} (f : Panicky) {s : Demuxer} {h : List (Oracle × DemuxOp)} (hl : Demuxer.Loose s)
    (hv : ∀ x ∈ h, x.1.Valid) (h0 : P s) (hs : ∀ s s', Demuxer.Loose s → P s → Demuxer.FMicro f s s' → P s') :
    P (runRecovering f s h) := by
  have m := Demuxer.recovering_micros f hl hv
  have : ∀ s', Demuxer.FMicros f s s' → Demuxer.Loose s' ∧ P s' := by
    intro s' m
    induction m with
    | refl => exact ⟨hl, h0⟩
    | tail _ m ih => exact ⟨ih.1.micro m, hs _ _ ih.1 ih.2 m⟩
  exact (this _ m).2

/-- **C101**: whatever the handler and the callback do, and however often the caller recovers, a packet is given to the handler at
most once, and a packet that waits has not been given to it. -/
theorem C101_once (f : Panicky) (name : String) (a : Bool) (h : List (Oracle × DemuxOp)) (hv : ∀ x ∈ h, x.1.Valid) :
    List.Subperm
      ((delivered (runRecovering f (Demuxer.new name a) h).calls ++ (runRecovering f (Demuxer.new name a) h).packets.flatten).map bare)
      ((taken (runRecovering f (Demuxer.new name a) h).calls).map bare) :=
  recovering_induct (P := Demuxer.AtMostOnce) f (Demuxer.Loose.new name a) hv (List.Subperm.refl _) fun _ _ hl h m => h.micro hl m

/-- **C101**: with `AutoFree`, a packet and its block are given back right after the handler has returned from it; if the handler
panics they never are; nothing else is given back. -/
theorem C101_release (f : Panicky) (name : String) (h : List (Oracle × DemuxOp)) (hv : ∀ x ∈ h, x.1.Valid) :
    GivenBack f (runRecovering f (Demuxer.new name true) h).calls := by
  have := recovering_induct (P := fun s => s.autoFree = true ∧ GivenBack f s.calls) f (Demuxer.Loose.new name true) hv ⟨rfl, .nil⟩
    fun _ _ _ h m => ⟨by rw [m.autoFree]; exact h.1, GivenBack.micro h.1 h.2 m⟩
  exact this.2

theorem failures_append (f : Panicky) (a : List Call) : ∀ (pre b : List Call), failures f pre (a ++ b) = failures f pre a + failures f (pre ++ a) b := by
  induction a with
  | nil => intro pre b; simp [failures]
  | cons c a ih => intro pre b; simp [failures, ih, Nat.add_assoc]

theorem freed_append (a b : List Call) : freed (a ++ b) = freed a ++ freed b := List.filterMap_append ..

theorem releases_append (a b : List Call) : releases (a ++ b) = releases a ++ releases b := List.filterMap_append ..

/-- **C101**: with `AutoFree`, the packets freed are packets that were delivered, in the same order, the blocks discarded are theirs,
and as many are not freed as the handler has panicked at. -/
theorem C101_leak {f : Panicky} {cs : List Call} (h : GivenBack f cs) :
    (freed cs).Sublist (delivered cs) ∧ releases cs = (freed cs).map AVPacket.bufferIndex ∧
      (delivered cs).length = (freed cs).length + failures f [] cs := by
  induction h with
  | nil => exact ⟨.refl _, rfl, rfl⟩
  | other cs c hp hr hf _ ih =>
    rw [freed_append, Demuxer.delivered_append, releases_append, failures_append, hp, hr, hf]
    have : failures f ([] ++ cs) [c] = 0 := by cases c <;> first | rfl | cases hp
    rw [this]
    simpa using ih
  | failed cs p hf _ ih =>
    rw [freed_append, Demuxer.delivered_append, releases_append, failures_append]
    have h1 : failures f ([] ++ cs) [.packet p] = 1 := by
      show (if f.handler ([] ++ cs) (.packet p) = true then 1 else 0) + 0 = 1
      rw [if_pos (by simpa using hf)]
    rw [h1, show freed [.packet p] = [] from rfl, show delivered [.packet p] = [p] from rfl, show releases [.packet p] = [] from rfl]
    refine ⟨?_, by simpa using ih.2.1, by simp [ih.2.2]; omega⟩
    simpa using ih.1.trans (List.sublist_append_left _ _)
  | released cs p hf _ ih =>
    rw [freed_append, Demuxer.delivered_append, releases_append, failures_append]
    have h1 : failures f ([] ++ cs) [.packet p, .discardHead p.bufferIndex, .free p] = 0 := by
      show (if f.handler ([] ++ cs) (.packet p) = true then 1 else 0) + (0 + (0 + 0)) = 0
      rw [if_neg (by simp [hf])]
    rw [h1]
    refine ⟨?_, ?_, ?_⟩
    · exact ih.1.append (.refl _)
    · rw [ih.2.1, List.map_append]; rfl
    · show (delivered cs ++ [p]).length = (freed cs ++ [p]).length + _
      simp [ih.2.2]; omega

/-- **C101**: a panic comes from the handler at the last call, from the callback, or from the demuxer itself as in C100. -/
theorem C101_blame (f : Panicky) (name : String) (a : Bool) (h : List (Oracle × DemuxOp)) (hv : ∀ x ∈ h, x.1.Valid) (o : Oracle)
    (ho : o.Valid) (e : DemuxOp) (s' : Demuxer) (hp : e.runP f o (runRecovering f (Demuxer.new name a) h) = .panicked s') :
    (∃ cs c, s'.calls = cs ++ [c] ∧ toHandler [c] = [c] ∧ f.handler cs c = true) ∨ (∃ p, f.preprocess p = true) ∨
      e.runP .none o (runRecovering f (Demuxer.new name a) h) = .panicked s' := by
  have hl := recovering_induct (P := Demuxer.Loose) f (Demuxer.Loose.new name a) hv (Demuxer.Loose.new name a) fun _ _ hl _ m => hl.micro m
  obtain ⟨s1, _, h1 | ⟨h1, hr⟩⟩ := Demuxer.runP_cases f ho hl e
  · rw [h1] at hp; cases hp
  · rw [h1] at hp
    injection hp with hp
    subst hp
    rcases hr with ⟨cs, c, h2, h3, h4⟩ | hr | ⟨_, hr⟩
    · refine Or.inl ⟨cs, c, h2, ?_, h4⟩
      unfold toHandler at h3 ⊢
      rw [List.mem_filter] at h3
      simp [h3.2]
    · exact Or.inr (Or.inl hr)
    · exact Or.inr (Or.inr hr)

/-- **C101**: the handler sees nothing before the end of probing; then a beginning of the announcements, then packets; or only that
there are no tracks. -/
theorem C101_order (f : Panicky) (name : String) (a : Bool) (h : List (Oracle × DemuxOp)) (hv : ∀ x ∈ h, x.1.Valid) :
    ((runRecovering f (Demuxer.new name a) h).completed = false → toHandler (runRecovering f (Demuxer.new name a) h).calls = []) ∧
    ((runRecovering f (Demuxer.new name a) h).completed = true →
      ∃ pre ps, toHandler (runRecovering f (Demuxer.new name a) h).calls = pre ++ ps.map .packet ∧
        ((runRecovering f (Demuxer.new name a) h).tracks.tracks ≠ [] ∧
            pre <+: (runRecovering f (Demuxer.new name a) h).tracks.tracks.map .newTrack ++ [.trackComplete] ∧ pre ≠ [] ∨
          (runRecovering f (Demuxer.new name a) h).tracks.tracks = [] ∧ pre = [.trackNotFound] ∧ ps = [])) :=
  recovering_induct (P := Demuxer.Announced) f (Demuxer.Loose.new name a) hv ⟨fun _ => rfl, fun e => by cases e⟩ fun _ _ hl h m => h.micro hl m

theorem runRecovering_append (f : Panicky) (l r : List (Oracle × DemuxOp)) : ∀ s, runRecovering f s (l ++ r) = runRecovering f (runRecovering f s l) r := by
  induction l with
  | nil => intro s; rfl
  | cons x l ih => intro s; obtain ⟨o, e⟩ := x; exact ih _

/-- **C101**: what has not been announced when probing has ended never is: after that there are only packets, and the tracks stay. -/
theorem C101_never_announced (f : Panicky) (name : String) (a : Bool) (h h' : List (Oracle × DemuxOp)) (hv : ∀ x ∈ h ++ h', x.1.Valid)
    (hc : (runRecovering f (Demuxer.new name a) h).completed = true) :
    (runRecovering f (Demuxer.new name a) (h ++ h')).tracks = (runRecovering f (Demuxer.new name a) h).tracks ∧
    ∃ ps : List AVPacket, toHandler (runRecovering f (Demuxer.new name a) (h ++ h')).calls =
      toHandler (runRecovering f (Demuxer.new name a) h).calls ++ ps.map .packet := by
  have hl := recovering_induct (h := h) (P := Demuxer.Loose) f (Demuxer.Loose.new name a) (fun x hx => hv x (by simp [hx])) (Demuxer.Loose.new name a)
    fun _ _ hl _ m => hl.micro m
  rw [runRecovering_append]
  have := recovering_induct (h := h') (P := fun s => s.completed = true ∧ s.tracks = (runRecovering f (Demuxer.new name a) h).tracks ∧
      ∃ ps : List AVPacket, toHandler s.calls = toHandler (runRecovering f (Demuxer.new name a) h).calls ++ ps.map .packet) f hl
    (fun x hx => hv x (by simp [hx])) ⟨hc, rfl, [], by simp⟩ (by
      rintro s s' hl ⟨h1, h2, ps, h3⟩ m
      obtain ⟨e1, qs, e2, _⟩ := m.after hl h1
      exact ⟨m.completed h1, e1.trans h2, ps ++ qs, by rw [e2, h3]; simp⟩)
  exact this.2

/-- **C101**: packets that wait in front of the last one when probing has ended wait for ever. -/
theorem C101_stuck (f : Panicky) (name : String) (a : Bool) (h h' : List (Oracle × DemuxOp)) (hv : ∀ x ∈ h ++ h', x.1.Valid)
    (hc : (runRecovering f (Demuxer.new name a) h).completed = true) (i : Nat) (q : List AVPacket) (x : AVPacket)
    (hq : (runRecovering f (Demuxer.new name a) h).packets[i]? = some (q ++ [x])) :
    ∃ y, (runRecovering f (Demuxer.new name a) (h ++ h')).packets[i]? = some (q ++ [y]) := by
  have hl := recovering_induct (h := h) (P := Demuxer.Loose) f (Demuxer.Loose.new name a) (fun x hx => hv x (by simp [hx])) (Demuxer.Loose.new name a)
    fun _ _ hl _ m => hl.micro m
  rw [runRecovering_append]
  have := recovering_induct (h := h') (P := fun s => s.completed = true ∧ ∃ y, s.packets[i]? = some (q ++ [y])) f hl
    (fun x hx => hv x (by simp [hx])) ⟨hc, x, hq⟩ (by
      rintro s s' hl ⟨h1, y, h2⟩ m
      exact ⟨m.completed h1, m.stuck hl h1 h2⟩)
  exact this.2

/-- **C101**: after the end of probing a panic of the handler changes one thing: the oldest block of the packet's buffer is not
discarded and the packet is not freed. In all else the demuxer is as if the handler had returned. -/
theorem C101_live (f : Panicky) (hp : ∀ p, f.preprocess p = false) (name : String) (a : Bool) (h : List (Oracle × DemuxOp))
    (hv : ∀ x ∈ h, x.1.Valid) (hc : (runRecovering f (Demuxer.new name a) h).completed = true) (o : Oracle) (ho : o.Valid) (e : DemuxOp)
    (s' : Demuxer) (hr : e.runP f o (runRecovering f (Demuxer.new name a) h) = .panicked s') :
    e.runP .none o (runRecovering f (Demuxer.new name a) h) = .panicked s' ∨
    ∃ p, s'.calls.getLast? = some (.packet p) ∧
      e.runP .none o (runRecovering f (Demuxer.new name a) h) =
        .done () { s' with calls := s'.calls ++ if a then [.discardHead p.bufferIndex, .free p] else [] } := by
  have hl := recovering_induct (P := fun s => Demuxer.Loose s ∧ s.autoFree = a) f (Demuxer.Loose.new name a) hv ⟨Demuxer.Loose.new name a, rfl⟩
    fun _ _ hl h m => ⟨hl.micro m, by rw [m.autoFree]; exact h.2⟩
  have := Demuxer.runP_both hp ho hl.1 hc hr
  rw [hl.2] at this
  exact this

/-! ## What a recovered panic of the handler costs -/

/-- The handler panics when it is told of a track. -/
def trackFaults : Panicky := ⟨fun _ c => match c with | .newTrack _ => true | _ => false, fun _ => false⟩

/-- The handler panics when it gets a packet of the first track. -/
def packetFaults : Panicky := ⟨fun _ c => match c with | .packet p => p.index = 0 | _ => false, fun _ => false⟩

/-- The callback panics. -/
def callbackFaults : Panicky := ⟨fun _ _ => false, fun _ => true⟩

theorem demoRun_valid : ∀ x ∈ demoRun, x.1.Valid := by
  intro x hx
  simp only [demoRun, List.mem_cons, List.not_mem_nil, or_false] at hx
  rcases hx with rfl | rfl | rfl | rfl | rfl | rfl | rfl | rfl
  all_goals first | exact exOracle_valid | exact backOracle_valid

/-- **C101** in full: when the caller goes on after a panic of the handler, the order of the calls is kept, no packet gets lost, and
every packet delivered is given back. -/
def C101_claim : Prop :=
  ∀ (f : Panicky) (name : String) (h : List (Oracle × DemuxOp)), (∀ x ∈ h, x.1.Valid) → (∀ p, f.preprocess p = false) →
    CallOrder (toHandler (runRecovering f (Demuxer.new name true) h).calls) ∧
    ((delivered (runRecovering f (Demuxer.new name true) h).calls ++ (runRecovering f (Demuxer.new name true) h).packets.flatten).map bare).Perm
      ((taken (runRecovering f (Demuxer.new name true) h).calls).map bare) ∧
    freed (runRecovering f (Demuxer.new name true) h).calls = delivered (runRecovering f (Demuxer.new name true) h).calls

/-- `Completed` is set before the tracks are announced: a panic in `OnNewTrack` leaves a demuxer that delivers packets of tracks that
were never announced. The packets before the last ones wait for ever, and what is discarded for a later packet is their block. -/
theorem C101_order_violated :
    (runRecovering trackFaults (Demuxer.new "ps" true) demoRun).calls.map Call.tag =
      [(8, 0, 0), (8, 1, 100), (8, 0, 900), (8, 1, 550), (1, 0, 16000), (5, 9, 0), (8, 0, 1800), (4, 0, 900), (6, 3, 0),
       (7, 0, 900), (8, 1, 1000), (4, 1, 450), (6, 8, 0), (7, 1, 450)] ∧
    (runRecovering trackFaults (Demuxer.new "ps" true) demoRun).packets.map (·.map AVPacket.dts) = [[0, 1800], [100, 1000]] ∧
    ¬ CallOrder (toHandler (runRecovering trackFaults (Demuxer.new "ps" true) demoRun).calls) := by
  have h1 : (runRecovering trackFaults (Demuxer.new "ps" true) demoRun).calls.map Call.tag =
      [(8, 0, 0), (8, 1, 100), (8, 0, 900), (8, 1, 550), (1, 0, 16000), (5, 9, 0), (8, 0, 1800), (4, 0, 900), (6, 3, 0),
       (7, 0, 900), (8, 1, 1000), (4, 1, 450), (6, 8, 0), (7, 1, 450)] := by decide +kernel
  refine ⟨h1, by decide +kernel, fun hc => ?_⟩
  have h2 : (toHandler (runRecovering trackFaults (Demuxer.new "ps" true) demoRun).calls).map Call.tag =
      [(1, 0, 16000), (4, 0, 900), (4, 1, 450)] := by decide +kernel
  rcases hc with hc | hc | ⟨ts, ps, hc, _⟩
  · rw [hc] at h2; cases h2
  · rw [hc] at h2; cases h2
  · have h3 : (2, 0, 0) ∈ (toHandler (runRecovering trackFaults (Demuxer.new "ps" true) demoRun).calls).map Call.tag := by
      rw [hc]
      exact List.mem_map.2 ⟨.trackComplete, by simp, rfl⟩
    rw [h2] at h3
    revert h3; decide

/-- The queues are emptied before the packets are delivered: a panic at one of them loses those after it. -/
theorem C101_lost_violated :
    (taken (runRecovering packetFaults (Demuxer.new "ps" true) demoRun).calls).map AVPacket.dts = [0, 100, 900, 550, 1800, 1000] ∧
    (delivered (runRecovering packetFaults (Demuxer.new "ps" true) demoRun).calls).map AVPacket.dts = [0, 900, 550] ∧
    (runRecovering packetFaults (Demuxer.new "ps" true) demoRun).packets.map (·.map AVPacket.dts) = [[1800], [1000]] ∧
    (freed (runRecovering packetFaults (Demuxer.new "ps" true) demoRun).calls).map AVPacket.dts = [550] := by
  decide +kernel

theorem C101_claim_violated : ¬ C101_claim := fun hc => C101_order_violated.2.2 (hc trackFaults "ps" demoRun demoRun_valid fun _ => rfl).1

/-- `ok` is set before the callback is called: when it panics the block is neither discarded nor that of a packet taken over. -/
theorem C101_callback_violated :
    ((DemuxOp.videoPacket 0 codecH264 (annexB exUnits) true 0 0).runP callbackFaults exOracle (Demuxer.new "ts" true)).state.calls.map Call.tag = [] ∧
    ((DemuxOp.videoPacket 0 codecH264 (annexB exUnits) true 0 0).runP callbackFaults exOracle (Demuxer.new "ts" true)).state.tracks.tracks.length = 1 := by
  decide +kernel

/-- The hypotheses of `C101_stuck` and `C101_never_announced`: a packet waits in front of the last one after the fifth operation. -/
example : (runRecovering trackFaults (Demuxer.new "ps" true) (demoRun.take 5)).completed = true ∧
    (runRecovering trackFaults (Demuxer.new "ps" true) (demoRun.take 5)).packets.map (·.map AVPacket.dts) = [[0, 900], [100, 550]] := by
  decide +kernel

/-- Two of three deliveries failed; one packet was freed. -/
example : failures packetFaults [] (runRecovering packetFaults (Demuxer.new "ps" true) demoRun).calls = 2 := by decide +kernel

end Avf
