import Verif.Lemmas.DemuxerManual
import Verif.Props.DemuxerFaults
/-! # C103: a handler that gives its packets back itself -/
namespace Avf
open Go

/-- One operation that does not panic after a delivery. -/
theorem Demuxer.manual_step {o : Oracle} (ho : o.Valid) {s : Demuxer} (hi : Demuxer.Inv s) (e : DemuxOp) :
    (e.runP .none o s).state.manual = (e.runP .none o s.manual).state ∧ ((∃ s', e.runP .none o s = .panicked s') ↔ ∃ s', e.runP .none o s.manual = .panicked s') := by
  rcases (Hom.run o e s).2 with h | ⟨s', h, hl⟩
  · rw [h]
    cases hx : e.runP .none o s with
    | done u s1 => exact ⟨rfl, ⟨fun ⟨_, h⟩ => (by cases h), fun ⟨_, h⟩ => (by cases h)⟩⟩
    | panicked s1 => exact ⟨rfl, ⟨fun _ => ⟨_, rfl⟩, fun _ => ⟨_, rfl⟩⟩⟩
  · exfalso
    rcases Demuxer.runP_none ho hi e with ⟨s1, _, h2⟩ | ⟨_, h2, _⟩
    · rw [h2] at h; cases h
    · rw [h2] at h
      injection h with h
      subst h
      unfold Demuxer.dropped at hl
      cases hb : e.packetBuffer with
      | none => rw [hb] at hl; exact Nat.lt_irrefl _ hl
      | some b =>
        rw [hb] at hl
        rw [show (s.call [.discardBack b]).calls = s.calls ++ [.discardBack b] from rfl, Demuxer.delivered_reject] at hl
        exact Nat.lt_irrefl _ hl

theorem Demuxer.manual_run {h : List (Oracle × DemuxOp)} : ∀ {s : Demuxer}, Demuxer.Inv s → (∀ x ∈ h, x.1.Valid) →
    (runRecovering .none s h).manual = runRecovering .none s.manual h := by
  induction h with
  | nil => intro s _ _; rfl
  | cons x h ih =>
    obtain ⟨o, e⟩ := x
    intro s hi hv
    have ho : o.Valid := hv (o, e) (by simp)
    unfold runRecovering
    rw [← (Demuxer.manual_step ho hi e).1]
    refine ih ?_ fun y hy => hv y (by simp [hy])
    rcases Demuxer.runP_none ho hi e with ⟨s1, h1, h2⟩ | ⟨_, h2, _⟩
    · rw [h2]; exact hi.micros (Demuxer.run_micros ho hi h1)
    · rw [h2]
      show Demuxer.Inv (s.dropped e)
      unfold Demuxer.dropped
      cases e.packetBuffer with
      | none => exact hi
      | some b => exact hi.micro (.reject s b)

/-- **C103**: a demuxer without `AutoFree` makes the calls of one with it, but for the releases, and is in the same state, for all
input, panics that the caller recovers from included. So a handler that ends `OnPacket` with `DiscardHeadPacket` and
`FreePacket` makes the two the same. -/
theorem C103_auto_free (name : String) (h : List (Oracle × DemuxOp)) (hv : ∀ x ∈ h, x.1.Valid) :
    runRecovering .none (Demuxer.new name true) h =
      { runRecovering .none (Demuxer.new name false) h with
        autoFree := true, calls := giveBack (runRecovering .none (Demuxer.new name false) h).calls } := by
  have hm := Demuxer.manual_run (h := h) (Demuxer.Inv.new name true) hv
  rw [show (Demuxer.new name true).manual = Demuxer.new name false from rfl] at hm
  rw [← hm]
  have hg := (C101_release .none name h hv).eq
  have ha : (runRecovering .none (Demuxer.new name true) h).autoFree = true :=
    recovering_induct (P := fun s => s.autoFree = true) .none (Demuxer.Loose.new name true) hv rfl fun _ _ _ h m => by rw [m.autoFree]; exact h
  generalize runRecovering .none (Demuxer.new name true) h = s at *
  unfold Demuxer.manual
  dsimp only
  rw [← hg, ← ha]

/-- **C103**: the two panic at the same operations. -/
theorem C103_panics (name : String) (h : List (Oracle × DemuxOp)) (hv : ∀ x ∈ h, x.1.Valid) (o : Oracle) (ho : o.Valid) (e : DemuxOp) :
    (∃ s', e.runP .none o (runRecovering .none (Demuxer.new name true) h) = .panicked s') ↔
      ∃ s', e.runP .none o (runRecovering .none (Demuxer.new name false) h) = .panicked s' := by
  have hm := Demuxer.manual_run (h := h) (Demuxer.Inv.new name true) hv
  rw [show (Demuxer.new name true).manual = Demuxer.new name false from rfl] at hm
  obtain ⟨h', _, hr⟩ := C100_history name true h hv
  rw [← hm]
  exact (Demuxer.manual_step ho (Demuxer.Reached.inv hr) e).2

/-- **C103**, histories without panics. -/
theorem C103_reached (name : String) (h : List (Oracle × DemuxOp)) (s : Demuxer) (hr : Reached name false h s) :
    Reached name true h { s with autoFree := true, calls := giveBack s.calls } := by
  have key : ∀ (h : List (Oracle × DemuxOp)) (s s1 : Demuxer), Demuxer.Inv s → (∀ x ∈ h, x.1.Valid) → runDemux s h = ok s1 →
      runRecovering .none s h = s1 := by
    intro h
    induction h with
    | nil => intro s s1 _ _ hr; cases hr; rfl
    | cons x h ih =>
      obtain ⟨o, e⟩ := x
      intro s s1 hi hv hr
      obtain ⟨s2, h1, h2⟩ := bind_eq_ok.1 hr
      have ho : o.Valid := hv (o, e) (by simp)
      unfold runRecovering
      rcases Demuxer.runP_none ho hi e with ⟨s3, h3, h4⟩ | ⟨h3, _, _⟩
      · rw [h1] at h3
        injection h3 with h3
        subst h3
        rw [h4]
        exact ih _ _ (hi.micros (Demuxer.run_micros ho hi h1)) (fun y hy => hv y (by simp [hy])) h2
      · exact absurd h1 (h3 s2)
  have key2 : ∀ (h : List (Oracle × DemuxOp)) (s : Demuxer) (s1 : Demuxer), Demuxer.Inv s → (∀ x ∈ h, x.1.Valid) → runDemux s.manual h = ok s1 →
      ∃ s2, runDemux s h = ok s2 := by
    intro h
    induction h with
    | nil => intro s s1 _ _ _; exact ⟨s, rfl⟩
    | cons x h ih =>
      obtain ⟨o, e⟩ := x
      intro s s1 hi hv hr
      have ho : o.Valid := hv (o, e) (by simp)
      obtain ⟨s2, h1, h2⟩ := bind_eq_ok.1 hr
      have hi' : Demuxer.Inv s.manual := ⟨hi.index, hi.keys, hi.known, hi.short⟩
      rcases Demuxer.runP_none ho hi' e with ⟨s3, h3, h4⟩ | ⟨h3, _, _⟩
      · rw [h1] at h3
        injection h3 with h3
        subst h3
        rcases Demuxer.runP_none ho hi e with ⟨s4, h5, h6⟩ | ⟨_, h6, _⟩
        · have hm := (Demuxer.manual_step ho hi e).1
          rw [h6, h4] at hm
          have hm : s4.manual = s2 := hm
          subst hm
          obtain ⟨s5, h7⟩ := ih s4 s1 (hi.micros (Demuxer.run_micros ho hi h5)) (fun y hy => hv y (by simp [hy])) h2
          exact ⟨s5, by show (e.run o s >>= _) = _; rw [h5]; exact h7⟩
        · obtain ⟨_, h7⟩ := (Demuxer.manual_step ho hi e).2.1 ⟨_, h6⟩
          rw [h4] at h7; cases h7
      · exact absurd h1 (h3 s2)
  obtain ⟨s2, h2⟩ := key2 h (Demuxer.new name true) s (Demuxer.Inv.new name true) hr.1 hr.2
  have e1 := key h (Demuxer.new name true) s2 (Demuxer.Inv.new name true) hr.1 h2
  have e2 := key h (Demuxer.new name false) s (Demuxer.Inv.new name false) hr.1 hr.2
  have e3 := C103_auto_free name h hr.1
  rw [e1, e2] at e3
  exact ⟨hr.1, by rw [h2, e3]⟩

/-- The calls of `demoRun` with `AutoFree`, from those without. -/
example : ((runDemux (Demuxer.new "ps" false) demoRun >>= fun s => ok ((giveBack s.calls).map Call.tag)) =
      runDemux (Demuxer.new "ps" true) demoRun >>= fun s => ok (s.calls.map Call.tag)) ∧
    (runDemux (Demuxer.new "ps" false) demoRun >>= fun s => ok ((delivered s.calls).length)) = ok 4 := by decide +kernel

end Avf
