import Verif.Lemmas.DemuxerReplay
import Verif.Props.DemuxerFaults
/-! # C102: where an operation ends when the handler panics, or closes the demuxer -/
namespace Avf
open Go

/-- **C102**: take any demuxer, any operation and the calls it makes when nobody panics. With a handler that panics the operation makes
the same calls up to the first one at which the handler panics, and panics there; if there is none, it ends as it would. -/
theorem C102_replay (f : Panicky) (hp : ∀ p, f.preprocess p = false) (o : Oracle) (e : DemuxOp) (s : Demuxer) :
    ∃ d, (e.runP .none o s).state.calls = s.calls ++ d ∧
      (Quiet f s.calls d ∧ e.runP f o s = e.runP .none o s ∨
       ∃ l c, FirstPanic f s.calls d l c ∧ ∃ s', e.runP f o s = .panicked s' ∧ s'.calls = s.calls ++ (l ++ [c])) :=
  Demuxer.runP_sim f hp o e s

theorem closingHandler_true {closes : List Call → Call → Bool} {cs : List Call} {c : Call} :
    (closingHandler closes).handler cs c = true ↔ ClosedBy closes cs := by
  unfold closingHandler; simp

theorem closingHandler_false {closes : List Call → Call → Bool} {cs : List Call} {c : Call} :
    (closingHandler closes).handler cs c = false ↔ ¬ ClosedBy closes cs := by
  unfold closingHandler; simp

/-- **C102**: an operation during which the handler closes the demuxer panics exactly if another call of the handler would follow the
one that closes. -/
theorem C102_close (closes : List Call → Call → Bool) (o : Oracle) (e : DemuxOp) (s s' : Demuxer) (d : List Call)
    (h0 : ¬ ClosedBy closes s.calls) (hr : e.runP .none o s = .done () s') (hd : s'.calls = s.calls ++ d) :
    ((∃ l c m c' r, d = l ++ c :: (m ++ c' :: r) ∧ c.isHandler = true ∧ closes (s.calls ++ l) c = true ∧ c'.isHandler = true) →
      ∃ x, e.runP (closingHandler closes) o s = .panicked x) ∧
    ((¬ ∃ l c m c' r, d = l ++ c :: (m ++ c' :: r) ∧ c.isHandler = true ∧ closes (s.calls ++ l) c = true ∧ c'.isHandler = true) →
      e.runP (closingHandler closes) o s = .done () s') := by
  obtain ⟨d', hd', hor⟩ := C102_replay (closingHandler closes) (fun _ => rfl) o e s
  rw [hr] at hd' hor
  have hdd : d' = d := List.append_cancel_left (hd'.symm.trans hd)
  subst hdd
  constructor
  · rintro ⟨l, c, m, c', r, he, hc, hcl, hc'⟩
    rcases hor with ⟨hq, _⟩ | ⟨_, _, _, x, hx, _⟩
    · exfalso
      have := hq (l ++ c :: m) c' r (by rw [he]; simp) hc'
      rw [closingHandler_false] at this
      exact this ⟨s.calls ++ l, c, m, by simp, hc, hcl⟩
    · exact ⟨x, hx⟩
  · intro hn
    rcases hor with ⟨_, h⟩ | ⟨l, c', ⟨⟨r, he⟩, _, hc', hf⟩, _⟩
    · exact h
    · exfalso
      rw [closingHandler_true] at hf
      obtain ⟨l1, c, r1, h1, hc, hcl⟩ := hf
      rcases List.append_eq_append_iff.1 h1 with ⟨a, e1, e2⟩ | ⟨a, e1, e2⟩
      · refine hn ⟨a, c, r1, c', r, by rw [he, e2]; simp, hc, by rw [← e1]; exact hcl, hc'⟩
      · cases a with
        | nil =>
          rw [List.append_nil] at e1
          refine hn ⟨[], c, r1, c', r, ?_, hc, by rw [e1]; simpa using hcl, hc'⟩
          rw [he, show l = c :: r1 by simpa using e2.symm]
          simp
        | cons b a =>
          injection e2 with e2 e3
          subst e2
          exact h0 ⟨l1, c, a, e1, hc, hcl⟩

/-- **C102**: after the end of probing an operation calls the handler at most once; so a handler may close the demuxer in `OnPacket`
then, and the operation ends as if it had not. -/
theorem C102_live (closes : List Call → Call → Bool) (o : Oracle) (e : DemuxOp) (s : Demuxer) (hc : s.completed = true)
    (h0 : ¬ ClosedBy closes s.calls) : e.runP (closingHandler closes) o s = e.runP .none o s := by
  obtain ⟨_, d, hd, hl⟩ := FewCalls.run o e s hc
  obtain ⟨d', hd', hor⟩ := C102_replay (closingHandler closes) (fun _ => rfl) o e s
  have hdd : d' = d := List.append_cancel_left (hd'.symm.trans hd)
  subst hdd
  rcases hor with ⟨_, h⟩ | ⟨l, c', ⟨⟨r, he⟩, _, hc', hf⟩, _⟩
  · exact h
  · exfalso
    rw [closingHandler_true] at hf
    obtain ⟨l1, c, r1, h1, hc, hcl⟩ := hf
    have : c ∈ l ∨ ClosedBy closes s.calls := by
      rcases List.append_eq_append_iff.1 h1 with ⟨a, e1, e2⟩ | ⟨a, e1, e2⟩
      · left; rw [e2]; simp
      · cases a with
        | nil => left; rw [show l = c :: r1 by simpa using e2.symm]; simp
        | cons b a =>
          injection e2 with e2 e3
          subst e2
          exact Or.inr ⟨l1, c, a, e1, hc, hcl⟩
    rcases this with hm | hm
    · rw [he, List.filter_append, List.filter_cons, if_pos hc', List.length_append] at hl
      have : 0 < (l.filter Call.isHandler).length := List.length_pos_of_mem (List.mem_filter.2 ⟨hm, hc⟩)
      simp only [List.length_cons] at hl
      omega
    · exact h0 hm

/-- **C102**: a handler that closes the demuxer in `OnNewTrack` makes the operation panic: `OnTrackComplete` is still to come. -/
theorem C102_announce (closes : List Call → Call → Bool) {name : String} {a : Bool} {h : List (Oracle × DemuxOp)} {s : Demuxer}
    (hr : Reached name a h s) (o : Oracle) (ho : o.Valid) (e : DemuxOp) (s' : Demuxer) (l r : List Call) (t : AVStream)
    (h0 : ¬ ClosedBy closes s.calls) (he : e.run o s = ok s') (hd : s'.calls = s.calls ++ (l ++ .newTrack t :: r))
    (hc : closes (s.calls ++ l) (.newTrack t) = true) : ∃ x, e.runP (closingHandler closes) o s = .panicked x := by
  have hr' : Reached name a (h ++ [(o, e)]) s' := by
    refine Reached.append hr (by simpa using ho) ?_
    show (e.run o s >>= fun s => ok s) = ok s'
    rw [he]; rfl
  have hmem : .trackComplete ∈ r := by
    have hord := C61_order hr'
    rw [hd, ← List.append_assoc, Demuxer.toHandler_append] at hord
    have hn : toHandler (.newTrack t :: r) = .newTrack t :: toHandler r := rfl
    rw [hn] at hord
    have key : ∀ (ts : List AVStream) (A B : List Call) (ps : List AVPacket),
        A ++ .newTrack t :: B = ts.map Call.newTrack ++ .trackComplete :: ps.map .packet → .trackComplete ∈ B := by
      intro ts A B ps hh
      rcases List.append_eq_append_iff.1 hh with ⟨u, e1, e2⟩ | ⟨u, e1, e2⟩
      · cases u with
        | nil => rw [List.nil_append] at e2; cases e2
        | cons x u => injection e2 with _ e2; rw [e2]; simp
      · cases u with
        | nil => rw [List.nil_append] at e2; cases e2
        | cons x u =>
          injection e2 with _ e2
          have : Call.newTrack t ∈ ps.map Call.packet := by rw [e2]; simp
          obtain ⟨p, _, hp⟩ := List.mem_map.1 this
          cases hp
    rcases hord with hord | hord | ⟨ts, ps, hord, _⟩
    · simp at hord
    · have : Call.newTrack t ∈ [Call.trackNotFound] := by rw [← hord]; simp
      simp at this
    · have := key ts _ _ ps hord
      unfold toHandler at this
      exact (List.mem_filter.1 this).1
  obtain ⟨m, n, rfl⟩ := List.append_of_mem hmem
  exact (C102_close closes o e s s' _ h0 ((C100_agrees hr o ho e s').2 he) hd).1 ⟨l, .newTrack t, m, .trackComplete, n, rfl, rfl, hc, rfl⟩

/-- **C102**: an operation of a demuxer without a handler panics exactly if it makes a call of the handler; so the model of closed
demuxers (C79) says the same. -/
theorem C102_closed {name : String} {a : Bool} {h : List (Oracle × DemuxOp)} {s : Demuxer} (hr : Reached name a h s) (o : Oracle) (ho : o.Valid)
    (e : DemuxOp) (s' : Demuxer) :
    (Life.step ⟨s, false, true⟩ (.use o e) = ok ⟨s', false, true⟩) ↔ e.runP ⟨fun _ _ => true, fun _ => false⟩ o s = .done () s' := by
  obtain ⟨d, hd, hor⟩ := C102_replay ⟨fun _ _ => true, fun _ => false⟩ (fun _ => rfl) o e s
  have hstep : Life.step ⟨s, false, true⟩ (.use o e) = (e.run o s >>= fun x =>
      if (x.calls.drop s.calls.length).any Call.isHandler then Go.panic else ok ⟨x, false, true⟩) := by
    unfold Life.step
    simp only [Life.oracle, if_true]
    congr 1
    funext x
    simp
  rw [hstep]
  cases hx : e.runP .none o s with
  | panicked s1 =>
    have h1 : e.runP ⟨fun _ _ => true, fun _ => false⟩ o s ≠ .done () s' := by
      rcases hor with ⟨_, h⟩ | ⟨_, _, _, x, h, _⟩
      · rw [h, hx]; exact fun e => by cases e
      · rw [h]; exact fun e => by cases e
    refine ⟨fun hs => ?_, fun hs => absurd hs h1⟩
    obtain ⟨x, h2, _⟩ := bind_eq_ok.1 hs
    rw [(C100_agrees hr o ho e x).2 h2] at hx
    cases hx
  | done u s1 =>
    have h1 := (C100_agrees hr o ho e s1).1 hx
    rw [h1, ok_bind]
    rw [hx] at hd hor
    have hd : s1.calls = s.calls ++ d := hd
    have hdrop : s1.calls.drop s.calls.length = d := by rw [hd, List.drop_left]
    rw [hdrop]
    rcases hor with ⟨hq, h⟩ | ⟨l, c, ⟨⟨r, he⟩, _, hc, _⟩, x, h, _⟩
    · have hany : d.any Call.isHandler = false := by
        rw [List.any_eq_false]
        intro c hc
        obtain ⟨l, r, e⟩ := List.append_of_mem hc
        intro hh
        exact absurd (hq l c r e hh) (by simp)
      rw [hany, h]
      constructor
      · intro hs; simp at hs; rw [hs]
      · intro hs; injection hs with _ hs; rw [hs]; rfl
    · have hany : d.any Call.isHandler = true := by
        rw [List.any_eq_true]
        exact ⟨c, by rw [he]; simp, hc⟩
      rw [hany, h]
      exact ⟨fun hs => (by cases hs), fun hs => (by cases hs)⟩

/-- **C102** in full: a handler may close the demuxer in any of its methods. -/
def C102_claim : Prop :=
  ∀ (closes : List Call → Call → Bool) (name : String) (a : Bool) (h : List (Oracle × DemuxOp)) (s : Demuxer), Reached name a h s →
    ¬ ClosedBy closes s.calls → ∀ (o : Oracle), o.Valid → ∀ (e : DemuxOp) (s' : Demuxer), e.run o s = ok s' → e.runP (closingHandler closes) o s = .done () s'

/-- The handler closes the demuxer when it is told of a track. -/
def closeAtTrack (_ : List Call) : Call → Bool
  | .newTrack _ => true
  | _ => false

theorem C102_claim_violated : ¬ C102_claim := by
  intro hclaim
  have hrun : (runDemux (Demuxer.new "ps" true) (demoRun.take 4) >>= fun s => DemuxOp.probeComplete.run exOracle s >>= fun s' =>
      ok (s.calls.any (·.isHandler), s.calls.length, (s'.calls.drop 4).any (closeAtTrack []))) = ok (false, 4, true) := by decide +kernel
  obtain ⟨s, h1, hrun⟩ := bind_eq_ok.1 hrun
  obtain ⟨s', h2, hrun⟩ := bind_eq_ok.1 hrun
  injection hrun with hrun
  injection hrun with h3 hrun
  injection hrun with h4 h5
  have hr : Reached "ps" true (demoRun.take 4) s := ⟨fun x hx => demoRun_valid x (List.mem_of_mem_take hx), h1⟩
  have h0 : ¬ ClosedBy closeAtTrack s.calls := by
    rintro ⟨l, c, r, e, hc, _⟩
    rw [List.any_eq_false] at h3
    exact h3 c (by rw [e]; simp) hc
  have hn : DemuxOp.probeComplete.runP .none exOracle s = .done () s' := (C100_agrees hr exOracle exOracle_valid _ s').2 h2
  obtain ⟨d, hd, _⟩ := C102_replay .none (fun _ => rfl) exOracle .probeComplete s
  rw [hn] at hd
  have hd : s'.calls = s.calls ++ d := hd
  rw [hd, ← h4, List.drop_left, List.any_eq_true] at h5
  obtain ⟨c, hc, hcl⟩ := h5
  cases c with
  | newTrack t =>
    obtain ⟨l, r, e⟩ := List.append_of_mem hc
    obtain ⟨x, hx⟩ := C102_announce closeAtTrack hr exOracle exOracle_valid .probeComplete s' l r t h0 h2 (by rw [hd, e]) rfl
    rw [hclaim closeAtTrack "ps" true _ s hr h0 exOracle exOracle_valid .probeComplete s' h2] at hx
    cases hx
  | _ => cases hcl

/-- After probing a packet brings one call of the handler, in which it may close the demuxer. -/
example : (runDemux (Demuxer.new "ps" true) (demoRun.take 6) >>= fun s =>
    (DemuxOp.audioPacket 3 codecPCMS16LE [9] 1800).run exOracle s >>= fun s' =>
      ok (s.completed, ((s'.calls.drop s.calls.length).filter Call.isHandler).length)) = ok (true, 1) := by decide +kernel

end Avf
