import Verif.Lemmas.Demuxer
import Verif.Spec.Tracks
import Mathlib.Data.List.Nodup
/-! # Lemmas: tracks, muxer and buffer indices -/
namespace Avf
open Go

theorem search_some {cond : AVStream → Bool} {l : List AVStream} {t : AVStream} :
    TrackManager.search cond l = some t ↔ IsFirst (fun x => cond x = true) l t := by
  induction l with
  | nil => simp [TrackManager.search, IsFirst]
  | cons s l ih =>
    unfold TrackManager.search
    by_cases h : cond s = true
    · rw [if_pos h]
      constructor
      · intro e; cases e; exact ⟨[], l, rfl, h, by simp⟩
      · rintro ⟨a, b, e, ht, ha⟩
        cases a with
        | nil => cases e; rfl
        | cons x a => cases e; exact absurd h (ha _ (List.mem_cons_self ..))
    · rw [if_neg h, ih]
      constructor
      · rintro ⟨a, b, e, ht, ha⟩
        refine ⟨s :: a, b, by rw [e]; rfl, ht, ?_⟩
        intro x hx
        rcases List.mem_cons.1 hx with rfl | hx
        · exact h
        · exact ha x hx
      · rintro ⟨a, b, e, ht, ha⟩
        cases a with
        | nil => cases e; exact absurd ht h
        | cons x a => cases e; exact ⟨a, b, rfl, ht, fun y hy => ha y (List.mem_cons_of_mem _ hy)⟩

theorem search_none {cond : AVStream → Bool} {l : List AVStream} :
    TrackManager.search cond l = none ↔ ∀ t ∈ l, ¬ cond t = true := by
  induction l with
  | nil => simp [TrackManager.search]
  | cons s l ih =>
    unfold TrackManager.search
    by_cases h : cond s = true
    · rw [if_pos h]; simp [h]
    · rw [if_neg h, ih]; simp [h]

/-- What neither completion nor the queues change. -/
def Demuxer.fixed (s : Demuxer) : List Int × String × Bool × List (Int × Int) := (s.orderedStreams, s.name, s.autoFree, s.bufferOf)

def Stays (s s' : Demuxer) : Prop := s'.fixed = s.fixed

/-- What no operation but `FindBufferIndex` changes. -/
def Keeps (s s' : Demuxer) : Prop := (s'.orderedStreams, s'.name, s'.autoFree) = (s.orderedStreams, s.name, s.autoFree)

theorem Stays.keeps {s s' : Demuxer} (h : Stays s s') : Keeps s s' := by
  unfold Stays Demuxer.fixed at h
  simp only [Prod.mk.injEq] at h
  unfold Keeps
  rw [h.1, h.2.1, h.2.2.1]

namespace Demuxer

theorem forwardPacket_stays {s s' : Demuxer} {p : AVPacket} (h : s.forwardPacket p = ok s') : Stays s s' := by
  unfold forwardPacket at h
  dsimp only at h
  split at h
  · split at h
    · cases h
    · cases h; rfl
  · cases h; rfl

theorem forwardAll_stays {ps : List AVPacket} {s s' : Demuxer} (h : s.forwardAll ps = ok s') : Stays s s' := by
  induction ps generalizing s with
  | nil => cases h; rfl
  | cons p ps ih =>
    obtain ⟨s1, h1, h2⟩ := bind_eq_ok.1 h
    exact (ih h2).trans (forwardPacket_stays h1)

theorem onProbeComplete_stays {o : Oracle} {s s' : Demuxer} (h : s.onProbeComplete o = ok s') : Stays s s' := by
  unfold onProbeComplete at h
  split at h
  · cases h; rfl
  · dsimp only at h
    split at h
    · cases h; rfl
    · rw [prepare_eq, ok_bind] at h
      have := forwardAll_stays h
      exact this

theorem enqueue_stays {o : Oracle} {s s' : Demuxer} {i : Int} {p : AVPacket} (h : s.enqueue o i p = ok s') : Stays s s' := by
  unfold enqueue at h
  obtain ⟨q, _, h⟩ := bind_eq_ok.1 h
  dsimp only at h
  split at h
  · cases h; rfl
  · obtain ⟨pp, _, h⟩ := bind_eq_ok.1 h
    split at h
    · obtain ⟨x, _, h⟩ := bind_eq_ok.1 h
      have := forwardPacket_stays h
      exact this
    · split at h
      · have := onProbeComplete_stays h; exact this
      · cases h; rfl

theorem process_stays {o : Oracle} {s s' : Demuxer} {p : AVPacket} (h : s.processBufferedPacket o p = ok s') : Stays s s' := by
  unfold processBufferedPacket at h
  split at h
  · exact enqueue_stays h
  · exact enqueue_stays (s := { s with packets := s.packets ++ [[]] }) h

theorem register_keeps (s : Demuxer) (b : Int) (t : AVStream) : Keeps s (s.register b t).2 := by
  unfold register addTrack
  by_cases h : s.completed = true
  · rw [if_pos h]; rfl
  · rw [if_neg h]; rfl

theorem createAudio_keeps {s s' : Demuxer} {b id tb : Int} {e : Option Bytes} {c : AudioConfig} {t : Option AVStream}
    (hr : s.createAudioTrack b id tb e c = ok (t, s')) : Keeps s s' := by
  unfold createAudioTrack at hr
  dsimp only at hr
  have hreg : ∀ t0, (ok (s.register b t0) : Go (Option AVStream × Demuxer)) = ok (t, s') → Keeps s s' := by
    intro t0 h; injection h with h; have := register_keeps s b t0; rw [h] at this; exact this
  split at hr
  · split at hr
    · cases hr
    · split at hr
      · cases hr; rfl
      · cases hr
      · exact hreg _ hr
  · exact hreg _ hr

theorem createVideo_keeps {o : Oracle} {s s' : Demuxer} {b id tb : Int} {e : Option Bytes} {t : Option AVStream}
    (hr : s.createVideoTrack o b id tb e = ok (t, s')) : Keeps s s' := by
  unfold createVideoTrack at hr
  dsimp only at hr
  split at hr
  · cases hr; rfl
  · cases hr
  · have hreg : ∀ t0, (ok (s.register b t0) : Go (Option AVStream × Demuxer)) = ok (t, s') → Keeps s s' := by
      intro t0 h; injection h with h; have := register_keeps s b t0; rw [h] at this; exact this
    exact hreg _ hr

theorem run_keeps {o : Oracle} {s s' : Demuxer} {e : DemuxOp} (hr : e.run o s = ok s') (hf : ∀ m, e ≠ .findBufferIndex m) :
    Keeps s s' := by
  cases e with
  | findBufferIndex m => exact absurd rfl (hf m)
  | newAudioTrack b id tb e c =>
    simp only [DemuxOp.run] at hr
    unfold onNewAudioTrack at hr
    obtain ⟨⟨t, s1⟩, h1, hr⟩ := bind_eq_ok.1 hr
    obtain ⟨⟨t2, s2⟩, h2, h1⟩ := bind_eq_ok.1 h1
    have hm : Keeps s s2 := by
      split at h2
      · exact createAudio_keeps h2
      · cases h2; rfl
    cases hr
    dsimp only at h1
    split at h1 <;> (cases h1; exact hm)
  | newVideoTrack b id tb e =>
    simp only [DemuxOp.run] at hr
    unfold onNewVideoTrack at hr
    obtain ⟨⟨t, s1⟩, h1, hr⟩ := bind_eq_ok.1 hr
    obtain ⟨⟨t2, s2⟩, h2, h1⟩ := bind_eq_ok.1 h1
    have hm : Keeps s s2 := by
      split at h2
      · exact createVideo_keeps h2
      · cases h2; rfl
    cases hr
    dsimp only at h1
    split at h1 <;> (cases h1; exact hm)
  | audioPacket b id d ts =>
    simp only [DemuxOp.run] at hr
    unfold onAudioPacket at hr
    obtain ⟨t0, h0, hr⟩ := bind_eq_ok.1 hr
    obtain ⟨⟨t, s1⟩, h1, hr⟩ := bind_eq_ok.1 hr
    have hm : Keeps s s1 := by
      split at h1
      · split at h1
        · cases h1; rfl
        · cases h1
        · obtain ⟨tb, _, h1⟩ := bind_eq_ok.1 h1
          exact createAudio_keeps h1
      · cases h1; rfl
    dsimp only at hr
    split at hr
    · cases hr; exact hm
    · exact (process_stays hr).keeps.trans hm
  | videoPacket b id d k dts pts =>
    simp only [DemuxOp.run] at hr
    unfold onVideoPacket at hr
    obtain ⟨t0, h0, hr⟩ := bind_eq_ok.1 hr
    obtain ⟨⟨t, s1⟩, h1, hr⟩ := bind_eq_ok.1 hr
    have hm : Keeps s s1 := by
      split at h1
      · obtain ⟨ex, _, h1⟩ := bind_eq_ok.1 h1
        split at h1
        · obtain ⟨tb, _, h1⟩ := bind_eq_ok.1 h1
          exact createVideo_keeps h1
        · cases h1; rfl
      · cases h1; rfl
    dsimp only at hr
    split at hr
    · cases hr; exact hm
    · exact (process_stays hr).keeps.trans hm
  | probeComplete => exact (onProbeComplete_stays hr).keeps
  | tryCompleteProbe =>
    simp only [DemuxOp.run] at hr
    unfold Demuxer.tryCompleteProbe at hr
    dsimp only at hr
    split at hr
    · cases hr; rfl
    · exact (onProbeComplete_stays hr).keeps
  | setProbeDuration n => cases hr; rfl

theorem findBufferIndex_old {s : Demuxer} {m : Int} (h : m ∈ s.orderedStreams) :
    ∃ i, s.findBufferIndex m = (i, s) ∧ s.orderedStreams[i]? = some m := by
  unfold findBufferIndex
  cases e : s.orderedStreams.findIdx? (fun x => decide (m = x)) with
  | none => rw [List.findIdx?_eq_none_iff] at e; have := e m h; simp at this
  | some i =>
    refine ⟨i, rfl, ?_⟩
    obtain ⟨hi, h1, _⟩ := List.findIdx?_eq_some_iff_getElem.1 e
    rw [List.getElem?_eq_getElem hi]
    simp at h1; rw [← h1]

theorem findBufferIndex_new {s : Demuxer} {m : Int} (h : m ∉ s.orderedStreams) :
    s.findBufferIndex m = (s.orderedStreams.length, { s with orderedStreams := s.orderedStreams ++ [m] }) := by
  unfold findBufferIndex
  have : s.orderedStreams.findIdx? (fun x => decide (m = x)) = none := by
    rw [List.findIdx?_eq_none_iff]; intro x hx; simp; rintro rfl; exact h hx
  rw [this]

theorem answers_dense {s : Demuxer} {h : List (Oracle × DemuxOp)} {xs : List (Int × Nat)} (hr : answers s h = ok xs) :
    Dense s.orderedStreams xs := by
  induction h generalizing s xs with
  | nil => cases hr; exact trivial
  | cons y h ih =>
    obtain ⟨o, e⟩ := y
    obtain ⟨s', h1, hr⟩ := bind_eq_ok.1 hr
    obtain ⟨ys, h2, hr⟩ := bind_eq_ok.1 hr
    have ih' := ih h2
    by_cases hf : ∃ m, e = .findBufferIndex m
    · obtain ⟨m, rfl⟩ := hf
      cases hr
      simp only [DemuxOp.run] at h1
      cases h1
      by_cases hm : m ∈ s.orderedStreams
      · obtain ⟨i, e1, e2⟩ := findBufferIndex_old hm
        rw [e1] at ih' ⊢
        exact Or.inl ⟨hm, e2, ih'⟩
      · rw [findBufferIndex_new hm] at ih' ⊢
        exact Or.inr ⟨hm, rfl, ih'⟩
    · have hk : s'.orderedStreams = s.orderedStreams := congrArg Prod.fst (run_keeps h1 (fun m hm => hf ⟨m, hm⟩))
      rw [hk] at ih'
      cases e with
      | findBufferIndex m => exact absurd ⟨m, rfl⟩ hf
      | _ => cases hr; exact ih'

end Demuxer
end Avf
