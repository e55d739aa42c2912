import Verif.Spec.Demuxer
import Mathlib.Data.List.Nodup
import Mathlib.Data.List.Forall2
/-! # Lemmas: demuxer operations as small steps -/
namespace Avf
open Go

theorem exOracle_valid : exOracle.Valid := by
  refine ⟨fun m => List.Perm.refl _, fun l => List.perm_insertionSort .., fun l => ?_, fun _ => rfl, fun _ => rfl⟩
  have : Std.Total fun a b : AVPacket => a.dts ≤ b.dts := ⟨fun a b => Int.le_total ..⟩
  have : IsTrans AVPacket fun a b : AVPacket => a.dts ≤ b.dts := ⟨fun a b c => Int.le_trans⟩
  exact (List.pairwise_insertionSort (fun a b : AVPacket => a.dts ≤ b.dts) l).imp (by simp)

namespace Demuxer

theorem lookup_append (m m' : List (Int × Int)) (k : Int) :
    (m ++ m').lookup k = (m.lookup k).or (m'.lookup k) := by
  induction m with
  | nil => simp
  | cons e m ih =>
    obtain ⟨a, b⟩ := e
    rw [List.cons_append, List.lookup_cons, List.lookup_cons]
    split <;> simp [ih]

theorem lookup_mem {m : List (Int × Int)} {k b : Int} (h : m.lookup k = some b) : (k, b) ∈ m := by
  induction m with
  | nil => cases h
  | cons e m ih =>
    obtain ⟨a, c⟩ := e
    rw [List.lookup_cons] at h
    split at h
    · rename_i hh; cases h; rw [beq_iff_eq.1 hh]; exact List.mem_cons_self ..
    · exact List.mem_cons_of_mem _ (ih h)

theorem lookup_of_mem {m : List (Int × Int)} {k b : Int} (hn : (m.map Prod.fst).Nodup) (h : (k, b) ∈ m) : m.lookup k = some b := by
  induction m with
  | nil => cases h
  | cons e m ih =>
    obtain ⟨a, c⟩ := e
    rw [List.map_cons, List.nodup_cons] at hn
    rw [List.lookup_cons]
    rcases List.mem_cons.1 h with e | h'
    · cases e; simp
    · have : k ≠ a := fun e => hn.1 (e ▸ List.mem_map.2 ⟨(k, b), h', rfl⟩)
      rw [show (k == a) = false by simpa using this]
      exact ih hn.2 h'

/-- The stream index of `p` is known and belongs to the buffer that `p` came from. -/
def Known (s : Demuxer) (p : AVPacket) : Prop := s.bufferOf.lookup p.index = some p.bufferIndex

/-- The packets of a queue when `p` comes: the last one gets its duration. -/
def stamp : List AVPacket → AVPacket → List AVPacket
  | [], p => [p]
  | [x], p => [{ x with duration := wrap64 (p.dts - x.dts) }, p]
  | x :: y :: rest, p => x :: stamp (y :: rest) p

/-- The queue that `p` gets into. -/
def slot (qs : List (List AVPacket)) (p : AVPacket) : Nat := if p.index < qs.length then p.index.toNat else qs.length

/-- All queues when `p` has come. -/
def push (qs : List (List AVPacket)) (p : AVPacket) : List (List AVPacket) :=
  if p.index < qs.length then qs.modify p.index.toNat (stamp · p) else qs ++ [[p]]

/-- The calls made for one packet. -/
def fwdCalls (s : Demuxer) (p : AVPacket) : List Call :=
  .packet p :: if s.autoFree then [.discardHead p.bufferIndex, .free p] else []

theorem stamp_length (q : List AVPacket) (p : AVPacket) : (stamp q p).length = q.length + 1 := by
  match q with
  | [] => rfl
  | [x] => rfl
  | x :: y :: rest => simp [stamp, stamp_length (y :: rest) p]

theorem stamp_concat (q : List AVPacket) (x p : AVPacket) :
    stamp (q ++ [x]) p = q ++ [{ x with duration := wrap64 (p.dts - x.dts) }, p] := by
  match q with
  | [] => rfl
  | [y] => rfl
  | y :: z :: rest =>
    have := stamp_concat (z :: rest) x p
    simp only [List.cons_append, stamp] at this ⊢
    rw [this]

theorem forwardPacket_ok {s : Demuxer} {p : AVPacket} (h : Known s p) : s.forwardPacket p = ok (s.call (fwdCalls s p)) := by
  unfold forwardPacket
  have : (s.call [.packet p]).bufferOf.lookup p.index = some p.bufferIndex := h
  dsimp only
  rw [this]
  unfold fwdCalls
  by_cases ha : s.autoFree = true
  · rw [if_pos (show (s.call [.packet p]).autoFree = true from ha), if_pos ha]
    simp [call]
  · rw [if_neg (show ¬ (s.call [.packet p]).autoFree = true from ha), if_neg ha]

theorem forwardAll_ok {s : Demuxer} {ps : List AVPacket} (h : ∀ p ∈ ps, Known s p) :
    s.forwardAll ps = ok (s.call (ps.flatMap (fwdCalls s))) := by
  induction ps generalizing s with
  | nil => simp [forwardAll, call]
  | cons p ps ih =>
    rw [forwardAll, forwardPacket_ok (h p (List.mem_cons_self ..)), ok_bind, ih (s := s.call (fwdCalls s p))]
    · have : fwdCalls (s.call (fwdCalls s p)) = fwdCalls s := by funext q; rfl
      rw [this]
      simp [call, List.append_assoc]
    · intro q hq; exact h q (List.mem_cons_of_mem _ hq)

theorem drain_eq (q : List AVPacket) : drain q = (q.take (q.length - 1), q.drop (q.length - 1)) := by
  unfold drain
  dsimp only
  by_cases h : (q.length : Int) - 2 < 0
  · rw [if_pos h]
    have : q.length - 1 = 0 := by omega
    simp [this]
  · rw [if_neg h]
    have : ((q.length : Int) - 2 + 1).toNat = q.length - 1 := by omega
    rw [this]

/-- What `calculatePCMFrequency` does to one track. -/
def pcmTune (u : Int) (qs : List (List AVPacket)) (t : AVStream) : AVStream :=
  if (firstPacketOf u codecPCMS16LE qs).1 < 1 ∨ t.codecID ≠ codecPCMS16LE then t
  else { t with sampleRate := pcmRate t.sampleSize (Int.tdiv (firstPacketOf u codecPCMS16LE qs).2 (firstPacketOf u codecPCMS16LE qs).1) }

/-- What `calculateG726BitRate` does to one track. -/
def g726Tune (u : Int) (qs : List (List AVPacket)) (t : AVStream) : AVStream :=
  if (firstPacketOf u codecG726 qs).1 < 1 ∨ t.codecID ≠ codecG726 then t
  else match g726Rate (Int.tdiv (firstPacketOf u codecG726 qs).2 (firstPacketOf u codecG726 qs).1) with
    | none => t
    | some r => { t with bitRate := r }

/-- What `prepareTracks` does to one track. -/
def retune (u : Int) (qs : List (List AVPacket)) (t : AVStream) : AVStream := g726Tune u qs (pcmTune u qs t)

/-- Changes that completion makes to the streams: sample rates and bit rates. -/
def Tuned (a b : AVStream) : Prop := b = { a with sampleRate := b.sampleRate, bitRate := b.bitRate }

theorem Tuned.refl (a : AVStream) : Tuned a a := rfl

theorem Tuned.trans {a b c : AVStream} (h : Tuned a b) (h' : Tuned b c) : Tuned a c := by
  unfold Tuned at *
  rw [h'] at *
  rw [h]

/-- The state after completion with tracks `ts` and the packets taken out in the order `rs`. -/
def done (s : Demuxer) (ts : List AVStream) (rs : List AVPacket) : Demuxer :=
  { s with
    completed := true, tracks := ⟨ts⟩, packets := s.packets.map fun q => q.drop (q.length - 1)
    calls := s.calls ++ (ts.map .newTrack ++ .trackComplete :: rs.flatMap (fwdCalls s)) }

/-- The state after `p` has come when probing is over. -/
def live (s : Demuxer) (p : AVPacket) : Demuxer :=
  match s.packets[slot s.packets p]? with
  | some [x] =>
    { s with
      packets := s.packets.set (slot s.packets p) [p]
      calls := s.calls ++ (.accepted p :: fwdCalls s { x with duration := wrap64 (p.dts - x.dts) }) }
  | _ => { s with packets := push s.packets p, calls := s.calls ++ [.accepted p] }

/-- The small steps that every operation is made of. -/
inductive Micro : Demuxer → Demuxer → Prop where
  | quiet (s : Demuxer) (os : List Int) (pd : Int) : Micro s { s with orderedStreams := os, probeDuration := pd }
  | register (s : Demuxer) (t : AVStream) (b : Int) (hc : s.completed = false) (ht : t.index = s.tracks.tracks.length) :
      Micro s { s with tracks := ⟨s.tracks.tracks ++ [t]⟩, bufferOf := s.bufferOf ++ [(t.index, b)] }
  | reject (s : Demuxer) (b : Int) : Micro s (s.call [.discardBack b])
  | probing (s : Demuxer) (p : AVPacket) (hc : s.completed = false) (hk : Known s p) :
      Micro s { s with packets := push s.packets p, calls := s.calls ++ [.accepted p] }
  | live (s : Demuxer) (p : AVPacket) (hc : s.completed = true) (hk : Known s p) : Micro s (s.live p)
  | done (s : Demuxer) (ts : List AVStream) (rs : List AVPacket) (hc : s.completed = false) (ht : s.tracks.tracks ≠ [])
      (hts : List.Forall₂ Tuned s.tracks.tracks ts) (hp : rs.Perm (s.packets.flatMap fun q => q.take (q.length - 1)))
      (hs : rs.Pairwise fun a b => ¬ b.dts < a.dts) (hu : ∃ u, ts = s.tracks.tracks.map (retune u s.packets)) : Micro s (s.done ts rs)
  | notFound (s : Demuxer) (hc : s.completed = false) (ht : s.tracks.tracks = []) :
      Micro s { s with completed := true, calls := s.calls ++ [.trackNotFound] }

/-- Invariant of the reachable states. -/
structure Inv (s : Demuxer) : Prop where
  index : ∀ (i : Nat) t, s.tracks.tracks[i]? = some t → t.index = i
  keys : s.bufferOf.map Prod.fst = (List.range s.tracks.tracks.length).map fun (i : Nat) => (i : Int)
  known : ∀ q ∈ s.packets, ∀ p ∈ q, Known s p
  short : s.completed = true → ∀ q ∈ s.packets, q.length ≤ 1

theorem Inv.new (name : String) (a : Bool) : Inv (Demuxer.new name a) := by
  constructor <;> simp [Demuxer.new]

theorem Inv.keyRange {s : Demuxer} (h : Inv s) {k b : Int} (hm : (k, b) ∈ s.bufferOf) : 0 ≤ k ∧ k < s.tracks.tracks.length := by
  have : k ∈ s.bufferOf.map Prod.fst := List.mem_map.2 ⟨_, hm, rfl⟩
  rw [h.keys, List.mem_map] at this
  obtain ⟨i, hi, rfl⟩ := this
  rw [List.mem_range] at hi
  omega

theorem Inv.nodup {s : Demuxer} (h : Inv s) : (s.bufferOf.map Prod.fst).Nodup := by
  rw [h.keys]
  exact List.Nodup.map (fun a b e => by simpa using e) List.nodup_range

theorem Inv.range {s : Demuxer} (h : Inv s) {p : AVPacket} (hk : Known s p) : 0 ≤ p.index ∧ p.index < s.tracks.tracks.length :=
  h.keyRange (lookup_mem hk)

theorem Inv.mapSet {s : Demuxer} (h : Inv s) (b : Int) :
    mapSet s.bufferOf s.tracks.tracks.length b = s.bufferOf ++ [((s.tracks.tracks.length : Int), b)] := by
  unfold Demuxer.mapSet
  rw [List.filter_eq_self.2]
  rintro ⟨k, c⟩ hm
  have := h.keyRange hm
  simp only [ne_eq, decide_eq_true_eq]
  omega

theorem mem_stamp {q : List AVPacket} {p x : AVPacket} (h : x ∈ stamp q p) :
    x = p ∨ ∃ y ∈ q, x.index = y.index ∧ x.bufferIndex = y.bufferIndex := by
  match q with
  | [] => simp [stamp] at h; exact Or.inl h
  | [y] =>
    simp [stamp] at h
    rcases h with rfl | rfl
    · exact Or.inr ⟨y, by simp⟩
    · exact Or.inl rfl
  | y :: z :: rest =>
    rw [stamp, List.mem_cons] at h
    rcases h with rfl | h
    · exact Or.inr ⟨x, by simp⟩
    · rcases mem_stamp h with rfl | ⟨w, hw, e⟩
      · exact Or.inl rfl
      · exact Or.inr ⟨w, List.mem_cons_of_mem _ hw, e⟩

theorem mem_push {qs : List (List AVPacket)} {p x : AVPacket} {q : List AVPacket} (hq : q ∈ push qs p) (h : x ∈ q) :
    x = p ∨ ∃ q' ∈ qs, ∃ y ∈ q', x.index = y.index ∧ x.bufferIndex = y.bufferIndex := by
  unfold push at hq
  split at hq
  · obtain ⟨j, hj⟩ := List.mem_iff_getElem?.1 hq
    rw [List.getElem?_modify] at hj
    cases e : qs[j]? with
    | none => rw [e] at hj; cases hj
    | some q0 =>
      rw [e] at hj
      have hm := List.mem_of_getElem? e
      simp only [Option.map_eq_map, Option.map_some, Option.some.injEq] at hj
      split at hj
      · subst hj
        rcases mem_stamp h with rfl | ⟨y, hy, e1⟩
        · exact Or.inl rfl
        · exact Or.inr ⟨q0, hm, y, hy, e1⟩
      · rw [← hj] at h; exact Or.inr ⟨q0, hm, x, h, rfl, rfl⟩
  · rcases List.mem_append.1 hq with hq | hq
    · exact Or.inr ⟨q, hq, x, h, rfl, rfl⟩
    · rw [List.mem_singleton] at hq; subst hq
      rw [List.mem_singleton] at h; exact Or.inl h

theorem Known.congr {s : Demuxer} {x y : AVPacket} (h : Known s y) (h1 : x.index = y.index) (h2 : x.bufferIndex = y.bufferIndex) :
    Known s x := by unfold Known at *; rw [h1, h2]; exact h

theorem forall₂_tuned_index {a b : List AVStream} (h : List.Forall₂ Tuned a b) (i : Nat) (t : AVStream) (ht : b[i]? = some t) :
    ∃ u, a[i]? = some u ∧ t.index = u.index := by
  induction h generalizing i with
  | nil => simp at ht
  | cons h1 _ ih =>
    cases i with
    | zero => simp at ht; subst ht; exact ⟨_, rfl, by rw [h1]⟩
    | succ i => simpa using ih i (by simpa using ht)

theorem live_tracks (s : Demuxer) (p : AVPacket) : (s.live p).tracks = s.tracks ∧ (s.live p).bufferOf = s.bufferOf ∧
    (s.live p).completed = s.completed ∧ (s.live p).autoFree = s.autoFree ∧ (s.live p).name = s.name := by
  unfold Demuxer.live; split <;> exact ⟨rfl, rfl, rfl, rfl, rfl⟩

theorem Inv.micro {s s' : Demuxer} (h : Inv s) (m : Micro s s') : Inv s' := by
  cases m with
  | quiet os pd => exact ⟨h.index, h.keys, h.known, h.short⟩
  | reject b => exact ⟨h.index, h.keys, h.known, h.short⟩
  | register t b hc ht =>
    refine ⟨?_, ?_, ?_, ?_⟩
    · intro i u hu
      dsimp only at hu
      rw [List.getElem?_append] at hu
      split at hu
      · exact h.index i u hu
      · have : i - s.tracks.tracks.length = 0 := by
          by_contra hne
          rw [List.getElem?_eq_none (by simp; omega)] at hu; cases hu
        rw [this] at hu
        cases hu
        rw [ht]; congr 1; omega
    · simp [h.keys, List.range_succ, ht]
    · intro q hq p hp
      have := h.known q hq p hp
      unfold Known at this ⊢
      dsimp only
      rw [lookup_append, this]; rfl
    · intro hc'; rw [show s.completed = true from hc'] at hc; cases hc
  | probing p hc hk =>
    refine ⟨h.index, h.keys, ?_, ?_⟩
    · intro q hq x hx
      rcases mem_push hq hx with rfl | ⟨q', hq', y, hy, e1, e2⟩
      · exact hk
      · exact (h.known q' hq' y hy).congr e1 e2
    · intro hc'; rw [show s.completed = true from hc'] at hc; cases hc
  | live p hc hk =>
    obtain ⟨h1, h2, h3, _⟩ := live_tracks s p
    refine ⟨by rw [h1]; exact h.index, by rw [h1, h2]; exact h.keys, ?_, ?_⟩
    · intro q hq x hx
      have : Known s x := by
        unfold Demuxer.live at hq
        split at hq
        · dsimp only at hq
          rcases List.mem_or_eq_of_mem_set hq with hq | rfl
          · exact h.known q hq x hx
          · rw [List.mem_singleton] at hx; subst hx; exact hk
        · rcases mem_push hq hx with rfl | ⟨q', hq', y, hy, e1, e2⟩
          · exact hk
          · exact (h.known q' hq' y hy).congr e1 e2
      unfold Known at this ⊢
      rw [h2]; exact this
    · intro _ q hq
      unfold Demuxer.live at hq
      split at hq
      · dsimp only at hq
        rcases List.mem_or_eq_of_mem_set hq with hq | rfl
        · exact h.short hc q hq
        · exact Nat.le_refl 1
      · rename_i hne
        dsimp only at hq
        unfold push at hq
        split at hq
        · rename_i hlt
          have hsl : slot s.packets p = p.index.toNat := by unfold slot; rw [if_pos hlt]
          rw [hsl] at hne
          obtain ⟨j, hj⟩ := List.mem_iff_getElem?.1 hq
          rw [List.getElem?_modify] at hj
          cases e : s.packets[j]? with
          | none => rw [e] at hj; cases hj
          | some q0 =>
            rw [e] at hj
            have hs := h.short hc q0 (List.mem_of_getElem? e)
            simp only [Option.map_eq_map, Option.map_some, Option.some.injEq] at hj
            split at hj
            · rename_i hji
              rw [hji, e] at hne
              rcases q0 with _ | ⟨x, _ | ⟨y, r⟩⟩
              · rw [← hj]; exact Nat.le_refl 1
              · exact absurd rfl (hne x)
              · simp at hs
            · rw [← hj]; exact hs
        · rcases List.mem_append.1 hq with hq | hq
          · exact h.short hc q hq
          · rw [List.mem_singleton] at hq; subst hq; exact Nat.le_refl 1
  | done ts rs hc ht hts hp hs =>
    refine ⟨?_, ?_, ?_, ?_⟩
    · intro i t hi
      obtain ⟨u, hu, e⟩ := forall₂_tuned_index hts i t hi
      rw [e]; exact h.index i u hu
    · show s.bufferOf.map Prod.fst = _
      rw [h.keys, show (s.done ts rs).tracks.tracks.length = ts.length from rfl, hts.length_eq]
    · intro q hq x hx
      obtain ⟨q0, hq0, rfl⟩ := List.mem_map.1 hq
      exact h.known q0 hq0 x (List.mem_of_mem_drop hx)
    · intro _ q hq
      obtain ⟨q0, hq0, rfl⟩ := List.mem_map.1 hq
      rw [List.length_drop]; omega
  | notFound hc ht =>
    refine ⟨h.index, h.keys, h.known, ?_⟩
    intro _ q hq
    match q with
    | [] => exact Nat.zero_le 1
    | x :: r =>
      have := h.range (h.known _ hq x (List.mem_cons_self ..))
      rw [ht] at this
      simp at this
      omega

/-! ## Rates -/

theorem goDiv_ok {a b : Int} (h : ¬ b < 1) : goDiv a b = ok (Int.tdiv a b) := if_neg (by omega)

theorem pcm_eq (u : Int) (s : Demuxer) : ∃ r, s.calculatePCMFrequency u =
    ok (r, { s with tracks := ⟨s.tracks.tracks.map (pcmTune u s.packets)⟩ }) := by
  unfold calculatePCMFrequency
  dsimp only
  by_cases h : (firstPacketOf u codecPCMS16LE s.packets).1 < 1
  · refine ⟨false, ?_⟩
    rw [if_pos h]
    have : s.tracks.tracks.map (pcmTune u s.packets) = s.tracks.tracks := by
      conv_rhs => rw [← List.map_id s.tracks.tracks]
      exact List.map_congr_left fun t _ => if_pos (Or.inl h)
    rw [this]; rfl
  · refine ⟨true, ?_⟩
    rw [if_neg h, goDiv_ok h]
    have : s.tracks.tracks.map (pcmTune u s.packets) = s.tracks.tracks.map fun t => if t.codecID ≠ codecPCMS16LE then t else
        { t with sampleRate := pcmRate t.sampleSize (Int.tdiv (firstPacketOf u codecPCMS16LE s.packets).2
          (firstPacketOf u codecPCMS16LE s.packets).1) } := by
      refine List.map_congr_left fun t _ => ?_
      unfold pcmTune
      by_cases ht : t.codecID ≠ codecPCMS16LE
      · rw [if_pos (Or.inr ht), if_pos ht]
      · rw [if_neg (by rintro (h' | h') <;> contradiction), if_neg ht]
    rw [this]; rfl

theorem g726_eq (u : Int) (s : Demuxer) : ∃ r, s.calculateG726BitRate u =
    ok (r, { s with tracks := ⟨s.tracks.tracks.map (g726Tune u s.packets)⟩ }) := by
  unfold calculateG726BitRate
  dsimp only
  have same : ∀ f : AVStream → AVStream, (∀ t, f t = t) → s.tracks.tracks.map f = s.tracks.tracks := by
    intro f hf
    conv_rhs => rw [← List.map_id s.tracks.tracks]
    exact List.map_congr_left fun t _ => hf t
  by_cases h : (firstPacketOf u codecG726 s.packets).1 < 1
  · refine ⟨false, ?_⟩
    rw [if_pos h, same (g726Tune u s.packets) fun t => if_pos (Or.inl h)]; rfl
  · rw [if_neg h, goDiv_ok h]
    simp only [ok_bind]
    cases hr : g726Rate (Int.tdiv (firstPacketOf u codecG726 s.packets).2 (firstPacketOf u codecG726 s.packets).1) with
    | none =>
      refine ⟨false, ?_⟩
      rw [same]
      · rfl
      · intro t; unfold g726Tune; rw [hr]; split <;> rfl
    | some r =>
      refine ⟨true, ?_⟩
      have : s.tracks.tracks.map (g726Tune u s.packets) = s.tracks.tracks.map fun t =>
          if t.codecID ≠ codecG726 then t else { t with bitRate := r } := by
        refine List.map_congr_left fun t _ => ?_
        unfold g726Tune
        rw [hr]
        by_cases ht : t.codecID ≠ codecG726
        · rw [if_pos (Or.inr ht), if_pos ht]
        · rw [if_neg (by rintro (h' | h') <;> contradiction), if_neg ht]
      rw [this]; rfl

theorem prepare_eq (u : Int) (s : Demuxer) :
    s.prepareTracks u = ok { s with tracks := ⟨s.tracks.tracks.map (retune u s.packets)⟩ } := by
  unfold prepareTracks
  obtain ⟨r, h⟩ := pcm_eq u s
  rw [h, ok_bind]
  obtain ⟨r', h'⟩ := g726_eq u { s with tracks := ⟨s.tracks.tracks.map (pcmTune u s.packets)⟩ }
  dsimp only
  rw [h', ok_bind]
  dsimp only
  rw [List.map_map]
  rfl

theorem retune_tuned (u : Int) (qs : List (List AVPacket)) (t : AVStream) : Tuned t (retune u qs t) := by
  have h1 : ∀ t, Tuned t (pcmTune u qs t) := by
    intro t; unfold pcmTune; split
    · exact Tuned.refl t
    · rfl
  have h2 : ∀ t, Tuned t (g726Tune u qs t) := by
    intro t; unfold g726Tune; split
    · exact Tuned.refl t
    · split
      · exact Tuned.refl t
      · rfl
  exact (h1 t).trans (h2 _)

end Demuxer
end Avf
