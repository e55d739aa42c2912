import Verif.Spec.PacketObjects
import Verif.Lemmas.DemuxerSystem
import Verif.Lemmas.FlvFiles
/-! # Helper lemmas: counting packet objects -/
namespace Avf
open Go PacketPool

/-- Objects of the pool that are not in it. -/
def PacketPool.out (s : PacketPool) : Int := s.objs.length - s.pool.length

theorem out_get (s : PacketPool) (pick : Option Nat) : (s.get pick).2.out = s.out + 1 := by
  unfold PacketPool.get PacketPool.out
  cases pick with
  | none => simp only [List.length_append, List.length_singleton]; omega
  | some i =>
    cases hi : s.pool[i]? with
    | none => simp only [hi, List.length_append, List.length_singleton]; omega
    | some id =>
      have := (List.getElem?_eq_some_iff.1 hi).1
      simp only [hi]
      rw [List.length_eraseIdx_of_lt this]
      omega

theorem out_modify (s : PacketPool) (p : Nat) (f : AVPacket → AVPacket) : (s.modify p f).out = s.out := by
  simp [PacketPool.modify, PacketPool.out]

theorem out_free (s : PacketPool) (p : Nat) : (s.freePacket p).out = s.out - 1 := by
  simp only [PacketPool.freePacket, PacketPool.modify, PacketPool.out, List.length_append, List.length_modify, List.length_singleton]
  omega

/-- Packets in the hands of demuxers. -/
def Shared.ours (s : Shared) : Int := s.pool.out - s.theirs.length

theorem Act.run_ours (lent : Option Nat) (s : Shared) (a : Act) (hf : a.Fair) (hl : a.Lasting) : (a.run lent s).ours = s.ours := by
  have fresh : ∀ (pick : Option Nat) (f : AVPacket → AVPacket),
      Shared.ours { pool := (s.pool.get pick).2.modify (s.pool.get pick).1 f, theirs := (s.pool.get pick).1 :: s.theirs } = s.ours := by
    intro pick f
    unfold Shared.ours
    rw [out_modify, out_get, List.length_cons]
    push_cast; omega
  cases a with
  | audio pick data ts id index timebase => exact fresh pick _
  | video pick data dts pts key t id index timebase => exact fresh pick _
  | use p f =>
    show (if p ∈ s.theirs then { s with pool := s.pool.modify p f } else s : Shared).ours = _
    split
    · unfold Shared.ours; rw [out_modify]
    · rfl
  | touch f =>
    cases lent with
    | none => rfl
    | some p =>
      show Shared.ours { s with pool := s.pool.modify p f } = _
      unfold Shared.ours; rw [out_modify]
  | free p =>
    show (if p ∈ s.theirs then { pool := s.pool.freePacket p, theirs := s.theirs.erase p } else s : Shared).ours = _
    split
    · rename_i hm
      have := List.length_pos_of_mem hm
      unfold Shared.ours
      rw [out_free, List.length_erase_of_mem hm]
      omega
    · rfl
  | rogueFree p => exact hf.elim
  | rogueUse p f => exact hf.elim
  | collect keep => exact hl.elim

theorem Act.run_objs (lent : Option Nat) (s : Shared) (a : Act) (hm : a.MakesNone) : (a.run lent s).pool.objs.length = s.pool.objs.length := by
  cases a with
  | audio pick data ts id index timebase => exact hm.elim
  | video pick data dts pts key t id index timebase => exact hm.elim
  | use p f =>
    show (if p ∈ s.theirs then { s with pool := s.pool.modify p f } else s : Shared).pool.objs.length = _
    split <;> simp [PacketPool.modify]
  | touch f => cases lent <;> simp [Act.run, PacketPool.modify]
  | free p =>
    show (if p ∈ s.theirs then { pool := s.pool.freePacket p, theirs := s.theirs.erase p } else s : Shared).pool.objs.length = _
    split <;> simp [PacketPool.modify, PacketPool.freePacket]
  | rogueFree p => simp [Act.run, PacketPool.modify, PacketPool.freePacket]
  | rogueUse p f => simp [Act.run, PacketPool.modify]
  | collect keep => rfl

theorem Act.foldl_ours (lent : Option Nat) (l : List Act) : ∀ (s : Shared), (∀ a ∈ l, a.Fair) → (∀ a ∈ l, a.Lasting) →
    (l.foldl (Act.run lent) s).ours = s.ours := by
  induction l with
  | nil => intros; rfl
  | cons a l ih =>
    intro s hf hl
    rw [List.foldl_cons, ih _ (fun b hb => hf b (List.mem_cons_of_mem _ hb)) (fun b hb => hl b (List.mem_cons_of_mem _ hb)),
      Act.run_ours lent s a (hf a (List.mem_cons_self ..)) (hl a (List.mem_cons_self ..))]

theorem Act.foldl_objs (lent : Option Nat) (l : List Act) : ∀ (s : Shared), (∀ a ∈ l, a.MakesNone) →
    (l.foldl (Act.run lent) s).pool.objs.length = s.pool.objs.length := by
  induction l with
  | nil => intros; rfl
  | cons a l ih =>
    intro s hm
    rw [List.foldl_cons, ih _ (fun b hb => hm b (List.mem_cons_of_mem _ hb)), Act.run_objs lent s a (hm a (List.mem_cons_self ..))]

theorem Act.run_theirs (lent : Option Nat) (s : Shared) (a : Act) (hm : a.MakesNone) : (a.run lent s).theirs.length ≤ s.theirs.length := by
  cases a with
  | audio pick data ts id index timebase => exact hm.elim
  | video pick data dts pts key t id index timebase => exact hm.elim
  | use p f =>
    show (if p ∈ s.theirs then { s with pool := s.pool.modify p f } else s : Shared).theirs.length ≤ _
    split <;> exact Nat.le_refl _
  | touch f => cases lent <;> exact Nat.le_refl _
  | free p =>
    show (if p ∈ s.theirs then { pool := s.pool.freePacket p, theirs := s.theirs.erase p } else s : Shared).theirs.length ≤ _
    split
    · exact List.length_erase_le
    · exact Nat.le_refl _
  | rogueFree p => exact Nat.le_refl _
  | rogueUse p f => exact Nat.le_refl _
  | collect keep => exact Nat.le_refl _

theorem Act.foldl_theirs (lent : Option Nat) (l : List Act) : ∀ (s : Shared), (∀ a ∈ l, a.MakesNone) →
    (l.foldl (Act.run lent) s).theirs.length ≤ s.theirs.length := by
  induction l with
  | nil => intros; exact Nat.le_refl _
  | cons a l ih =>
    intro s hm
    rw [List.foldl_cons]
    exact (ih _ (fun b hb => hm b (List.mem_cons_of_mem _ hb))).trans (Act.run_theirs lent s a (hm a (List.mem_cons_self ..)))

/-! ## `AutoFree` is set once -/

namespace Demuxer

theorem register_autoFree {s s' : Demuxer} {b : Int} {t : AVStream} {r : Option AVStream} (h : s.register b t = (r, s')) :
    s'.autoFree = s.autoFree := by
  unfold register addTrack at h
  by_cases hc : s.completed = true
  · rw [if_pos hc] at h; cases h; rfl
  · rw [if_neg hc] at h
    dsimp only at h
    split at h <;> cases h <;> rfl

theorem createAudioTrack_autoFree {s s' : Demuxer} {b id tb : Int} {e : Option Bytes} {c : AudioConfig} {r : Option AVStream}
    (h : s.createAudioTrack b id tb e c = ok (r, s')) : s'.autoFree = s.autoFree := by
  unfold createAudioTrack at h
  dsimp only at h
  split at h
  · split at h
    · cases h
    · split at h
      · cases h; rfl
      · cases h
      · rw [Go.pure_def] at h; injection h with h; exact register_autoFree h
  · rw [Go.pure_def] at h; injection h with h; exact register_autoFree h

theorem createVideoTrack_autoFree {o : Oracle} {s s' : Demuxer} {b id tb : Int} {e : Option Bytes} {r : Option AVStream}
    (h : s.createVideoTrack o b id tb e = ok (r, s')) : s'.autoFree = s.autoFree := by
  unfold createVideoTrack at h
  dsimp only at h
  split at h
  · cases h; rfl
  · cases h
  · injection h with h; exact register_autoFree h

end Demuxer

namespace ObjDemuxer

theorem audioTrack_autoFree {o : Oracle} {s s' : Demuxer} {b id : Int} {data : Bytes} {r : Option AVStream}
    (h : audioTrack o s b id data = ok (r, s')) : s'.autoFree = s.autoFree := by
  unfold audioTrack at h
  obtain ⟨t, _, h⟩ := bind_eq_ok.1 h
  split at h
  · split at h
    · cases h; rfl
    · cases h
    · obtain ⟨_, _, h⟩ := bind_eq_ok.1 h
      exact Demuxer.createAudioTrack_autoFree h
  · cases h; rfl

theorem videoTrack_autoFree {o : Oracle} {s s' : Demuxer} {b id : Int} {data : Bytes} {key : Bool} {r : Option AVStream}
    (h : videoTrack o s b id data key = ok (r, s')) : s'.autoFree = s.autoFree := by
  unfold videoTrack at h
  obtain ⟨t, _, h⟩ := bind_eq_ok.1 h
  split at h
  · obtain ⟨x, _, h⟩ := bind_eq_ok.1 h
    split at h
    · obtain ⟨_, _, h⟩ := bind_eq_ok.1 h
      exact Demuxer.createVideoTrack_autoFree h
    · cases h; rfl
  · cases h; rfl

theorem small_autoFree {o : Oracle} {s s' : Demuxer} {e : DemuxOp} (h : e.run o s = ok s')
    (he : match e with | .findBufferIndex _ | .newAudioTrack .. | .newVideoTrack .. | .setProbeDuration _ => True | _ => False) :
    s'.autoFree = s.autoFree := by
  cases e with
  | findBufferIndex m =>
    cases h
    unfold Demuxer.findBufferIndex
    split <;> rfl
  | newAudioTrack b id tb e c =>
    unfold DemuxOp.run at h
    obtain ⟨⟨r, s1⟩, h1, h⟩ := bind_eq_ok.1 h
    cases h
    unfold Demuxer.onNewAudioTrack at h1
    obtain ⟨⟨t, s2⟩, h2, h1⟩ := bind_eq_ok.1 h1
    have e2 : s2.autoFree = s.autoFree := by
      split at h2
      · exact Demuxer.createAudioTrack_autoFree h2
      · cases h2; rfl
    dsimp only at h1
    split at h1 <;> cases h1 <;> exact e2
  | newVideoTrack b id tb e =>
    unfold DemuxOp.run at h
    obtain ⟨⟨r, s1⟩, h1, h⟩ := bind_eq_ok.1 h
    cases h
    unfold Demuxer.onNewVideoTrack at h1
    obtain ⟨⟨t, s2⟩, h2, h1⟩ := bind_eq_ok.1 h1
    have e2 : s2.autoFree = s.autoFree := by
      split at h2
      · exact Demuxer.createVideoTrack_autoFree h2
      · cases h2; rfl
    dsimp only at h1
    split at h1 <;> cases h1 <;> exact e2
  | setProbeDuration n => cases h; rfl
  | audioPacket => exact he.elim
  | videoPacket => exact he.elim
  | probeComplete => exact he.elim
  | tryCompleteProbe => exact he.elim

/-- Packets in queues. -/
def waiting (d : ObjDemuxer) : Nat := (d.queues.map LList.size).sum

/-- `d` becomes `d'`; `k` packets that the demuxer had in its hands, outside of queues, it has no more. -/
structure Moved (o : ObjOracle) (k : Nat) (d d' : ObjDemuxer) : Prop where
  ours : (∀ n, ∀ a ∈ o.acts n, a.Fair) → (∀ n, ∀ a ∈ o.acts n, a.Lasting) →
    d'.shared.ours - d'.waiting + k = d.shared.ours - d.waiting
  objs : (∀ n, ∀ a ∈ o.acts n, a.MakesNone) → d'.shared.pool.objs.length = d.shared.pool.objs.length
  theirs : (∀ n, ∀ a ∈ o.acts n, a.MakesNone) → d.base.autoFree = true →
    d'.base.autoFree = true ∧ d'.shared.theirs.length ≤ d.shared.theirs.length

theorem Moved.trans {o : ObjOracle} {k k' : Nat} {d d' d'' : ObjDemuxer} (h : Moved o k d d') (h' : Moved o k' d' d'') :
    Moved o (k + k') d d'' :=
  ⟨fun a b => by have := h.ours a b; have := h'.ours a b; push_cast; omega, fun a => (h'.objs a).trans (h.objs a),
    fun a b => ⟨(h'.theirs a (h.theirs a b).1).1, (h'.theirs a (h.theirs a b).1).2.trans (h.theirs a b).2⟩⟩

theorem Moved.refl (o : ObjOracle) (d : ObjDemuxer) : Moved o 0 d d := ⟨fun _ _ => by simp, fun _ => rfl, fun _ h => ⟨h, Nat.le_refl _⟩⟩

/-- Only the part without packets changes. -/
theorem Moved.base (o : ObjOracle) (d : ObjDemuxer) {b : Demuxer} (h : b.autoFree = d.base.autoFree) : Moved o 0 d { d with base := b } :=
  ⟨fun _ _ => by simp [waiting], fun _ => rfl, fun _ ha => ⟨h.trans ha, Nat.le_refl _⟩⟩

theorem others_moved (o : ObjOracle) (d : ObjDemuxer) (lent : Option Nat) : Moved o 0 d (d.others o lent) :=
  ⟨fun hf hl => by
    have := Act.foldl_ours lent (o.acts d.base.calls.length) d.shared (hf _) (hl _)
    simp only [others, waiting] at this ⊢
    omega, fun hm => Act.foldl_objs lent _ _ (hm _), fun hm ha => ⟨ha, Act.foldl_theirs lent _ _ (hm _)⟩⟩

theorem tell_moved (o : ObjOracle) (d : ObjDemuxer) (c : Call) (lent : Option Nat) : Moved o 0 d (d.tell o c lent) :=
  (Moved.base o d (b := d.base.call [c]) rfl).trans (others_moved o _ lent)

theorem modify_moved (o : ObjOracle) (d : ObjDemuxer) (p : Nat) (f : AVPacket → AVPacket) : Moved o 0 d (d.modify p f) :=
  ⟨fun _ _ => by simp only [modify, waiting, Shared.ours, out_modify]; omega, fun _ => by simp [modify, PacketPool.modify],
    fun _ ha => ⟨ha, Nat.le_refl _⟩⟩

theorem forwardPacket_moved {o : ObjOracle} {d d' : ObjDemuxer} {p : Nat} (h : d.forwardPacket o p = ok d') : Moved o 1 d d' := by
  unfold forwardPacket at h
  obtain ⟨x, hx, h⟩ := bind_eq_ok.1 h
  by_cases ha : d.base.autoFree = true
  · rw [if_pos ha] at h
    dsimp only at h
    obtain ⟨y, hy, h⟩ := bind_eq_ok.1 h
    revert h
    cases hb : List.lookup y.index (d.tell o (.packet x) (some p)).base.bufferOf with
    | none => intro h; cases h
    | some b =>
      intro h
      cases h
      refine (tell_moved o d (.packet x) (some p)).trans (k' := 1) ⟨fun _ _ => ?_, fun _ => ?_, fun _ ha => ⟨ha, Nat.le_refl _⟩⟩
      · simp only [waiting, Shared.ours, out_free]; push_cast; omega
      · simp [PacketPool.freePacket, PacketPool.modify]
  · rw [if_neg ha] at h
    cases h
    have h1 : Moved o 1 d { d with shared := { d.shared with theirs := p :: d.shared.theirs } } :=
      ⟨fun _ _ => by simp only [waiting, Shared.ours, List.length_cons]; push_cast; omega, fun _ => rfl, fun _ h => absurd h ha⟩
    exact h1.trans (tell_moved o _ _ _)

theorem forwardAll_moved {o : ObjOracle} (l : List Nat) : ∀ {d d' : ObjDemuxer}, d.forwardAll o l = ok d' → Moved o l.length d d' := by
  induction l with
  | nil => intro d d' h; cases h; exact Moved.refl o d
  | cons p l ih =>
    intro d d' h
    unfold forwardAll at h
    obtain ⟨d1, h1, h⟩ := bind_eq_ok.1 h
    have := (forwardPacket_moved h1).trans (ih h)
    rwa [List.length_cons, Nat.add_comm]

theorem remove_size {q q' : LList Nat} {i : Int} {x : Nat} (h : q.remove i = ok (x, q')) (hi : 0 ≤ i) : q'.size + 1 = q.size := by
  unfold LList.remove at h
  obtain ⟨_, h0, h⟩ := bind_eq_ok.1 h
  have hs : i < q.size := by
    unfold Avf.assert at h0
    split at h0
    · rename_i hc; simpa using hc
    · cases h0
  obtain ⟨⟨prev, off⟩, _, h⟩ := bind_eq_ok.1 h
  obtain ⟨l1, h1, h⟩ := bind_eq_ok.1 h
  have e1 : l1.size = q.size := by
    revert h1
    split
    · intro h1
      obtain ⟨n, _, h1⟩ := bind_eq_ok.1 h1
      cases h1; rfl
    · split
      · intro h1; cases h1; rfl
      · intro h1
        obtain ⟨n, _, h1⟩ := bind_eq_ok.1 h1
        unfold LList.setNext at h1
        split at h1
        · cases h1
        · obtain ⟨m, _, h1⟩ := bind_eq_ok.1 h1
          cases h1; rfl
  dsimp only at h
  obtain ⟨n, _, h⟩ := bind_eq_ok.1 h
  cases h
  split <;> simp only <;> omega

theorem add_size {q q' : LList Nat} {x : Nat} (h : q.add x = ok q') : q'.size = q.size + 1 := by
  unfold LList.add at h
  obtain ⟨l2, h2, h⟩ := bind_eq_ok.1 h
  cases h
  have : l2.size = q.size := by
    revert h2
    split
    · intro h2
      obtain ⟨l3, h3, h2⟩ := bind_eq_ok.1 h2
      cases h2
      unfold LList.setNext at h3
      split at h3
      · cases h3
      · obtain ⟨m, _, h3⟩ := bind_eq_ok.1 h3
        cases h3; rfl
    · intro h2; cases h2; rfl
  simp only [this]

theorem takeFront_count (n : Nat) : ∀ {q q' : LList Nat} {xs : List Nat}, takeFront n q = ok (xs, q') → q'.size + xs.length = q.size := by
  induction n with
  | zero => intro q q' xs h; cases h; rfl
  | succ n ih =>
    intro q q' xs h
    unfold takeFront at h
    obtain ⟨⟨x, q1⟩, h1, h⟩ := bind_eq_ok.1 h
    obtain ⟨⟨ys, q2⟩, h2, h⟩ := bind_eq_ok.1 h
    cases h
    have e1 := remove_size h1 (by omega)
    have e2 := ih h2
    rw [List.length_cons]
    omega

theorem drainAll_count (qs : List (LList Nat)) : ∀ {qs' : List (LList Nat)} {xs : List Nat}, drainAll qs = ok (xs, qs') →
    (qs'.map LList.size).sum + xs.length = (qs.map LList.size).sum := by
  induction qs with
  | nil => intro qs' xs h; cases h; rfl
  | cons q qs ih =>
    intro qs' xs h
    unfold drainAll at h
    obtain ⟨⟨x, q1⟩, h1, h⟩ := bind_eq_ok.1 h
    obtain ⟨⟨ys, q2⟩, h2, h⟩ := bind_eq_ok.1 h
    cases h
    have e1 := takeFront_count _ h1
    have e2 := ih h2
    simp only [List.map_cons, List.sum_cons, List.length_append]
    omega

theorem tells_moved (o : ObjOracle) (l : List AVStream) : ∀ (d : ObjDemuxer),
    Moved o 0 d (l.foldl (fun d t => d.tell o (.newTrack t) none) d) := by
  induction l with
  | nil => exact fun d => Moved.refl o d
  | cons t l ih => exact fun d => (tell_moved o d _ _).trans (ih _)

theorem onProbeComplete_moved {o : ObjOracle} (ho : o.Choices) {d d' : ObjDemuxer} (h : d.onProbeComplete o = ok d') : Moved o 0 d d' := by
  unfold onProbeComplete at h
  by_cases hc : d.base.completed = true
  · rw [if_pos hc] at h; cases h; exact Moved.refl o d
  · rw [if_neg hc] at h
    dsimp only at h
    refine (Moved.base o d (b := { d.base with completed := true }) rfl).trans (k' := 0) ?_
    split at h
    · cases h; exact tell_moved o _ _ _
    · obtain ⟨d1, h1, h⟩ := bind_eq_ok.1 h
      have m1 : Moved o 0 { d with base := { d.base with completed := true } } d1 := by
        unfold prepareTracks at h1
        obtain ⟨ps, _, h1⟩ := bind_eq_ok.1 h1
        obtain ⟨s, hs, h1⟩ := bind_eq_ok.1 h1
        cases h1
        rw [Demuxer.prepare_eq] at hs
        cases hs
        exact Moved.base o _ rfl
      have m2 := (m1.trans (tells_moved o d1.base.tracks.tracks d1)).trans (tell_moved o _ .trackComplete none)
      generalize (d1.base.tracks.tracks.foldl (fun d t => d.tell o (.newTrack t) none) d1).tell o .trackComplete none = d2 at h m2
      obtain ⟨⟨result, queues⟩, h2, h⟩ := bind_eq_ok.1 h
      have e := drainAll_count _ h2
      have m3 := forwardAll_moved _ h
      rw [(ho.sortPerm _ _).length_eq] at m3
      refine ⟨fun hf hl => ?_, fun hm => (m3.objs hm).trans (m2.objs hm),
        fun hm ha => ⟨(m3.theirs hm (m2.theirs hm ha).1).1, (m3.theirs hm (m2.theirs hm ha).1).2.trans (m2.theirs hm ha).2⟩⟩
      have a := m3.ours hf hl
      have b := m2.ours hf hl
      simp only [waiting] at a b e ⊢
      omega

theorem sum_set {l : List (LList Nat)} {i : Nat} {q q' : LList Nat} (h : l[i]? = some q) :
    ((l.set i q').map LList.size).sum + q.size = (l.map LList.size).sum + q'.size := by
  induction l generalizing i with
  | nil => simp at h
  | cons a l ih =>
    cases i with
    | zero => simp only [List.getElem?_cons_zero, Option.some.injEq] at h; subst h; simp only [List.set_cons_zero, List.map_cons, List.sum_cons]; omega
    | succ i =>
      have := ih (by simpa using h)
      simp only [List.set_cons_succ, List.map_cons, List.sum_cons]; omega

theorem idxI_some {α : Type} {l : List α} {i : Int} {x : α} (h : idxI l i = ok x) : l[i.toNat]? = some x := by
  unfold idxI at h
  split at h
  · cases h
  · unfold Avf.idx at h
    split at h
    · rename_i y hy; cases h; exact hy
    · cases h

theorem enqueue_moved {o : ObjOracle} (ho : o.Choices) {d d' : ObjDemuxer} {i : Int} {p : Nat} (h : d.enqueue o i p = ok d') : Moved o 1 d d' := by
  unfold enqueue at h
  obtain ⟨q, hq, h⟩ := bind_eq_ok.1 h
  obtain ⟨q1, hq1, h⟩ := bind_eq_ok.1 h
  have hq := idxI_some hq
  have e1 := add_size hq1
  have m0 : Moved o 1 d { d with queues := d.queues.set i.toNat q1 } :=
    ⟨fun _ _ => by
      have := sum_set (q' := q1) hq
      simp only [waiting]
      push_cast; omega, fun _ => rfl, fun _ ha => ⟨ha, Nat.le_refl _⟩⟩
  dsimp only at h
  split at h
  · cases h; exact m0
  · rename_i hprev
    obtain ⟨pp, _, h⟩ := bind_eq_ok.1 h
    obtain ⟨x, _, h⟩ := bind_eq_ok.1 h
    have m1 := m0.trans (modify_moved o { d with queues := d.queues.set i.toNat q1 } pp fun y => { y with duration := wrap64 (x.dts - y.dts) })
    have hq2 : (({ d with queues := d.queues.set i.toNat q1 } : ObjDemuxer).modify pp fun y => { y with duration := wrap64 (x.dts - y.dts) }).queues[i.toNat]? = some q1 := by
      show (d.queues.set i.toNat q1)[i.toNat]? = _
      rw [List.getElem?_set_self (List.getElem?_eq_some_iff.1 hq).1]
    generalize ({ d with queues := d.queues.set i.toNat q1 } : ObjDemuxer).modify pp (fun y => { y with duration := wrap64 (x.dts - y.dts) }) = d1 at h m1 hq2
    split at h
    · obtain ⟨⟨x1, q2⟩, h2, h⟩ := bind_eq_ok.1 h
      have e2 := remove_size h2 (by omega)
      have m2 := forwardPacket_moved h
      refine ⟨fun hf hl => ?_, fun hm => (m2.objs hm).trans (m1.objs hm),
        fun hm ha => ⟨(m2.theirs hm (m1.theirs hm ha).1).1, (m2.theirs hm (m1.theirs hm ha).1).2.trans (m1.theirs hm ha).2⟩⟩
      have a := m2.ours hf hl
      have b := m1.ours hf hl
      have := sum_set (q' := q2) hq2
      simp only [waiting] at a b this ⊢
      omega
    · obtain ⟨ps, _, h⟩ := bind_eq_ok.1 h
      split at h
      · exact m1.trans (onProbeComplete_moved ho h)
      · cases h; exact m1

theorem process_moved {o : ObjOracle} (ho : o.Choices) {d d' : ObjDemuxer} {p : Nat} (h : d.processBufferedPacket o p = ok d') :
    Moved o 1 d d' := by
  unfold processBufferedPacket at h
  obtain ⟨x, _, h⟩ := bind_eq_ok.1 h
  split at h
  · exact enqueue_moved ho h
  · have m : Moved o 0 d { d with queues := d.queues ++ [LList.empty] } :=
      ⟨fun _ _ => by simp [waiting, LList.empty], fun _ => rfl, fun _ ha => ⟨ha, Nat.le_refl _⟩⟩
    have := m.trans (enqueue_moved ho h)
    exact this

/-- An operation: at most one packet is taken from the pool, at once, and the packets in the hands of demuxers are those in queues. -/
structure Stepped (o : ObjOracle) (d d' : ObjDemuxer) : Prop where
  ours : (∀ n, ∀ a ∈ o.acts n, a.Fair) → (∀ n, ∀ a ∈ o.acts n, a.Lasting) → d'.shared.ours - d'.waiting = d.shared.ours - d.waiting
  objs : (∀ n, ∀ a ∈ o.acts n, a.MakesNone) → d'.shared.pool.objs.length = d.shared.pool.objs.length ∨
    d'.shared.pool.objs.length = ((d.others o none).shared.pool.get o.pick).2.objs.length
  theirs : (∀ n, ∀ a ∈ o.acts n, a.MakesNone) → d.base.autoFree = true →
    d'.base.autoFree = true ∧ d'.shared.theirs.length ≤ d.shared.theirs.length

theorem Moved.stepped {o : ObjOracle} {d d' : ObjDemuxer} (h : Moved o 0 d d') : Stepped o d d' :=
  ⟨fun a b => by have := h.ours a b; push_cast at this; omega, fun a => .inl (h.objs a), h.theirs⟩

/-- A packet is made and put in a queue. -/
theorem made_stepped {o : ObjOracle} {d d1 d2 d' : ObjDemuxer} (h1 : d1.shared = (d.others o none).shared)
    (hq : d1.waiting = (d.others o none).waiting) (hw : d2.waiting = d1.waiting) (ht : d2.shared.theirs = d1.shared.theirs)
    (ho : d2.shared.pool.out = (d1.shared.pool.get o.pick).2.out) (hn : d2.shared.pool.objs.length = (d1.shared.pool.get o.pick).2.objs.length)
    (ha : d2.base.autoFree = d.base.autoFree) (h : Moved o 1 d2 d') : Stepped o d d' := by
  refine ⟨fun hf hl => ?_, fun hm => .inr ?_, fun hm h0 => ?_⟩
  · have a := (others_moved o d none).ours hf hl
    have b := h.ours hf hl
    rw [out_get] at ho
    unfold Shared.ours at *
    rw [hw, ht, ho, hq, h1] at b
    push_cast at a b
    omega
  · rw [h.objs hm, hn, h1]
  · obtain ⟨a, b⟩ := h.theirs hm (ha.trans h0)
    rw [ht, h1] at b
    exact ⟨a, b.trans ((others_moved o d none).theirs hm h0).2⟩

theorem step_stepped {o : ObjOracle} (ho : o.Choices) {d d' : ObjDemuxer} {e : DemuxOp} (h : d.step o e = ok d') : Stepped o d d' := by
  have m0 := others_moved o d none
  have plain : ∀ {d1 : ObjDemuxer}, Moved o 0 (d.others o none) d1 → Stepped o d d1 := fun h => (m0.trans h).stepped
  unfold step at h
  cases e with
  | audioPacket b id data ts =>
    dsimp only at h
    unfold onAudioPacket at h
    obtain ⟨⟨track, s⟩, ht, h⟩ := bind_eq_ok.1 h
    dsimp only at h
    have ha := audioTrack_autoFree ht
    cases track with
    | none => cases h; exact plain (Moved.base o _ ha)
    | some t =>
      dsimp only at h
      obtain ⟨x, _, h⟩ := bind_eq_ok.1 h
      refine made_stepped (d1 := { d.others o none with base := s }) rfl rfl ?_ ?_ ?_ ?_ ha (process_moved ho h)
      · rfl
      · rfl
      · show (PacketPool.modify _ _ _).out = _
        rw [out_modify]
        show (PacketPool.modify _ _ _).out = _
        rw [out_modify]
        rfl
      · simp [modify, PacketPool.modify, PacketPool.newAudioPacket]
  | videoPacket b id data key dts pts =>
    dsimp only at h
    unfold onVideoPacket at h
    obtain ⟨⟨track, s⟩, ht, h⟩ := bind_eq_ok.1 h
    dsimp only at h
    have ha := videoTrack_autoFree ht
    cases track with
    | none => cases h; exact plain (Moved.base o _ ha)
    | some t =>
      dsimp only at h
      obtain ⟨x, _, h⟩ := bind_eq_ok.1 h
      refine made_stepped (d1 := { d.others o none with base := s }) rfl rfl ?_ ?_ ?_ ?_ ha (process_moved ho h)
      · rfl
      · rfl
      · show (PacketPool.modify _ _ _).out = _
        rw [out_modify]
        show (PacketPool.modify _ _ _).out = _
        rw [out_modify]
        show (PacketPool.modify _ _ _).out = _
        rw [out_modify]
        rfl
      · simp [modify, PacketPool.modify, PacketPool.newVideoPacket]
  | probeComplete => exact plain (onProbeComplete_moved ho h)
  | tryCompleteProbe =>
    dsimp only at h
    unfold tryCompleteProbe at h
    dsimp only at h
    split at h
    · cases h; exact plain (Moved.refl o _)
    · exact plain (onProbeComplete_moved ho h)
  | findBufferIndex m => obtain ⟨s, hs, h⟩ := bind_eq_ok.1 h; cases h; exact plain (Moved.base o _ (small_autoFree hs trivial))
  | newAudioTrack b id tb e c => obtain ⟨s, hs, h⟩ := bind_eq_ok.1 h; cases h; exact plain (Moved.base o _ (small_autoFree hs trivial))
  | newVideoTrack b id tb e => obtain ⟨s, hs, h⟩ := bind_eq_ok.1 h; cases h; exact plain (Moved.base o _ (small_autoFree hs trivial))
  | setProbeDuration n => obtain ⟨s, hs, h⟩ := bind_eq_ok.1 h; cases h; exact plain (Moved.base o _ (small_autoFree hs trivial))

end ObjDemuxer

namespace ObjSystem
open ObjDemuxer

/-- Packets in queues. -/
def waiting (S : ObjSystem) : Nat := (S.cores.map fun c => (c.queues.map LList.size).sum).sum

theorem sum_map_set {α : Type} (f : α → Nat) {l : List α} {i : Nat} {x y : α} (h : l[i]? = some x) :
    ((l.set i y).map f).sum + f x = (l.map f).sum + f y := by
  induction l generalizing i with
  | nil => simp at h
  | cons a l ih =>
    cases i with
    | zero => simp only [List.getElem?_cons_zero, Option.some.injEq] at h; subst h; simp only [List.set_cons_zero, List.map_cons, List.sum_cons]; omega
    | succ i =>
      have := ih (by simpa using h)
      simp only [List.set_cons_succ, List.map_cons, List.sum_cons]; omega

theorem step_ours {S S' : ObjSystem} {i : Nat} {o : ObjOracle} {e : DemuxOp} (ho : o.Valid) (hl : ∀ n, ∀ a ∈ o.acts n, a.Lasting)
    (h : S.step i o e = ok S') : S'.shared.ours - S'.waiting = S.shared.ours - S.waiting := by
  unfold step at h
  cases hc : S.cores[i]? with
  | none => rw [hc] at h; cases h; rfl
  | some c =>
    rw [hc] at h
    obtain ⟨d, hd, h⟩ := bind_eq_ok.1 h
    cases h
    have a := (step_stepped ho.toChoices hd).ours ho.fair hl
    have b := sum_map_set (fun c : DemuxCore => (c.queues.map LList.size).sum) (y := { base := d.base, queues := d.queues }) hc
    have e1 : (S.view c).waiting = (c.queues.map LList.size).sum := rfl
    have e2 : d.waiting = (d.queues.map LList.size).sum := rfl
    have e3 : (S.view c).shared = S.shared := rfl
    unfold waiting
    simp only at b ⊢
    rw [e1, e2, e3] at a
    omega

theorem run_ours (H : List (Nat × ObjOracle × DemuxOp)) : ∀ {S S' : ObjSystem}, (∀ x ∈ H, x.2.1.Valid) →
    (∀ x ∈ H, ∀ n, ∀ a ∈ x.2.1.acts n, a.Lasting) → S.run H = ok S' → S'.shared.ours - S'.waiting = S.shared.ours - S.waiting := by
  induction H with
  | nil => intro S S' _ _ h; cases h; rfl
  | cons x H ih =>
    obtain ⟨i, o, e⟩ := x
    intro S S' hv hl h
    unfold run at h
    obtain ⟨S1, h1, h⟩ := bind_eq_ok.1 h
    rw [ih (fun y hy => hv y (List.mem_cons_of_mem _ hy)) (fun y hy => hl y (List.mem_cons_of_mem _ hy)) h,
      step_ours (hv _ (List.mem_cons_self ..)) (hl _ (List.mem_cons_self ..)) h1]

end ObjSystem

theorem SysInv.new (names : List (String × Bool)) {shared : Shared} (hp : PoolRun shared.pool shared.theirs) :
    SysInv [] names (ObjSystem.new names shared)
      (names.map fun n => ⟨{ base := { name := n.1, autoFree := n.2 } }, [], Demuxer.new n.1 n.2, n⟩) := by
  refine ⟨?_, ?_, ?_, ?_, ?_⟩
  · rw [List.map_map]; rfl
  · rw [List.map_map]; exact (List.map_id' _).symm
  · intro x hx
    obtain ⟨n, _, rfl⟩ := List.mem_map.1 hx
    exact ⟨rfl, rfl, rfl, fun t ht => absurd ht (by simp)⟩
  · intro i x hx
    obtain ⟨n, _, rfl⟩ := List.mem_map.1 (List.mem_of_getElem? hx)
    exact ⟨[], rfl, by simp, rfl⟩
  · have : ((names.map fun n => (⟨{ base := { name := n.1, autoFree := n.2 } }, [], Demuxer.new n.1 n.2, n⟩ : Entry)).flatMap Entry.l) = [] := by
      rw [List.flatMap_eq_nil_iff]
      intro x hx
      obtain ⟨n, _, rfl⟩ := List.mem_map.1 hx
      rfl
    rw [this, List.nil_append]
    exact hp.inv

theorem SysInv.waiting {H : List (Nat × ObjOracle × DemuxOp)} {names : List (String × Bool)} {S : ObjSystem} {es : List Entry}
    (h : SysInv H names S es) : S.waiting = (es.flatMap Entry.l).length := by
  unfold ObjSystem.waiting
  rw [h.cores, List.map_map, List.length_flatMap]
  congr 1
  refine List.map_congr_left fun x hx => ?_
  have hx := h.ok x hx
  show (x.core.queues.map LList.size).sum = x.l.length
  rw [hx.queues, List.map_map]
  unfold Entry.l
  rw [List.length_flatMap]
  congr 1
  exact List.map_congr_left fun t ht => LRel_size (hx.rows t ht).1

/-- What is not in the pool is in queues or in the hands of others, by numbers. -/
theorem SysInv.none_lost {H : List (Nat × ObjOracle × DemuxOp)} {names : List (String × Bool)} {S : ObjSystem} {es : List Entry}
    (h : SysInv H names S es) (hc : S.shared.ours = S.waiting) :
    (S.shared.pool.pool ++ (es.flatMap Entry.l ++ S.shared.theirs)).Perm (List.range S.shared.pool.objs.length) := by
  have hnd : (S.shared.pool.pool ++ (es.flatMap Entry.l ++ S.shared.theirs)).Nodup := by
    rw [List.nodup_append]
    refine ⟨h.inv.pool, h.inv.distinct, fun a ha b hb hab => ?_⟩
    subst hab
    exact h.inv.apart a ha hb
  have hsub : S.shared.pool.pool ++ (es.flatMap Entry.l ++ S.shared.theirs) ⊆ List.range S.shared.pool.objs.length := by
    intro p hp
    rw [List.mem_range]
    rcases List.mem_append.1 hp with hp | hp
    · obtain ⟨x, hx, _⟩ := h.inv.blank p hp
      exact (List.getElem?_eq_some_iff.1 hx).1
    · exact h.inv.liveIn p hp
  refine (hnd.subperm hsub).perm_of_length_le ?_
  have hw := h.waiting
  unfold Shared.ours PacketPool.out at hc
  rw [List.length_range, List.length_append, List.length_append]
  omega

namespace ObjSystem
open ObjDemuxer

/-- New objects are made when all others are in use. -/
theorem step_objs {S S' : ObjSystem} {i : Nat} {o : ObjOracle} {e : DemuxOp} (ho : o.Valid) (hl : ∀ n, ∀ a ∈ o.acts n, a.Lasting)
    (hm : ∀ n, ∀ a ∈ o.acts n, a.MakesNone) (ht : S.Thrifty i o) (hc : S.shared.ours = S.waiting) (h : S.step i o e = ok S') :
    S'.shared.pool.objs.length ≤ max S.shared.pool.objs.length (S.waiting + S.shared.theirs.length + 1) := by
  unfold step at h
  cases hcore : S.cores[i]? with
  | none => rw [hcore] at h; cases h; omega
  | some c =>
    rw [hcore] at h
    obtain ⟨d, hd, h⟩ := bind_eq_ok.1 h
    cases h
    have hb : S.before i o = ((S.view c).others o none).shared := by unfold before; rw [hcore]; rfl
    unfold Thrifty at ht
    rw [hb] at ht
    have m := others_moved o (S.view c) none
    have e1 := m.ours ho.fair hl
    have e2 : ((S.view c).others o none).shared.pool.objs.length = S.shared.pool.objs.length := m.objs hm
    have e3 : ((S.view c).others o none).shared.theirs.length ≤ S.shared.theirs.length := Act.foldl_theirs none _ _ (hm _)
    have e4 : ((S.view c).others o none).waiting = (S.view c).waiting := rfl
    rcases (step_stepped ho.toChoices hd).objs hm with h1 | h1
    · show d.shared.pool.objs.length ≤ _
      rw [h1]
      exact Nat.le_max_left _ _
    · show d.shared.pool.objs.length ≤ _
      rw [h1]
      generalize ((S.view c).others o none) = d1 at *
      by_cases hp : d1.shared.pool.pool = []
      · have e5 : (d1.shared.pool.get o.pick).2.objs.length = d1.shared.pool.objs.length + 1 := by
          unfold PacketPool.get
          cases o.pick with
          | none => simp
          | some k => simp [hp]
        rw [e5]
        have e6 : (S.view c).shared = S.shared := rfl
        rw [e4, e6, hc] at e1
        unfold Shared.ours PacketPool.out at e1
        rw [hp, List.length_nil] at e1
        push_cast at e1
        omega
      · obtain ⟨k, hk, hpick⟩ := ht hp
        have e5 : (d1.shared.pool.get o.pick).2.objs.length = d1.shared.pool.objs.length := by
          unfold PacketPool.get
          rw [hpick]
          simp only [List.getElem?_eq_getElem hk]
        rw [e5, e2]
        exact Nat.le_max_left _ _

/-- With `AutoFree` others get no packets to keep. -/
theorem step_theirs {S S' : ObjSystem} {i : Nat} {o : ObjOracle} {e : DemuxOp} (ho : o.Valid) (hm : ∀ n, ∀ a ∈ o.acts n, a.MakesNone)
    (ha : ∀ c ∈ S.cores, c.base.autoFree = true) (h : S.step i o e = ok S') :
    S'.shared.theirs.length ≤ S.shared.theirs.length ∧ ∀ c ∈ S'.cores, c.base.autoFree = true := by
  unfold step at h
  cases hcore : S.cores[i]? with
  | none => rw [hcore] at h; cases h; exact ⟨Nat.le_refl _, ha⟩
  | some c =>
    rw [hcore] at h
    obtain ⟨d, hd, h⟩ := bind_eq_ok.1 h
    cases h
    have := (step_stepped ho.toChoices hd).theirs hm (ha c (List.mem_of_getElem? hcore))
    refine ⟨this.2, fun c' hc' => ?_⟩
    rcases List.mem_or_eq_of_mem_set hc' with h1 | h1
    · exact ha c' h1
    · rw [h1]; exact this.1

end ObjSystem

theorem Entry.Ok.same {objs : List AVPacket} {x : Entry} (h : x.Ok objs) :
    x.s.completed = x.core.base.completed ∧ x.s.tracks = x.core.base.tracks := by
  have := h.base
  generalize x.s.packets = P at this
  rw [this]
  exact ⟨rfl, rfl⟩

theorem SysInv.reached {H : List (Nat × ObjOracle × DemuxOp)} {names : List (String × Bool)} {S : ObjSystem} {es : List Entry}
    (h : SysInv H names S es) {x : Entry} (hx : x ∈ es) : ∃ g, Reached x.n.1 x.n.2 g x.s := by
  obtain ⟨i, hi⟩ := List.getElem?_of_mem hx
  obtain ⟨g, _, h2, h3⟩ := h.alone i x hi
  exact ⟨g, fun y hy => (h2 y hy).1, h3⟩

theorem sum_map_le {α : Type} (f g : α → Nat) (l : List α) (h : ∀ x ∈ l, f x ≤ g x) : (l.map f).sum ≤ (l.map g).sum := by
  induction l with
  | nil => exact Nat.le_refl _
  | cons a l ih =>
    have := h a (List.mem_cons_self ..)
    have := ih fun x hx => h x (List.mem_cons_of_mem _ hx)
    simp only [List.map_cons, List.sum_cons]
    omega

theorem sum_short {α : Type} (l : List (List α)) (h : ∀ q ∈ l, q.length ≤ 1) : (l.map List.length).sum ≤ l.length := by
  induction l with
  | nil => exact Nat.le_refl _
  | cons a l ih =>
    have := h a (List.mem_cons_self ..)
    have := ih fun x hx => h x (List.mem_cons_of_mem _ hx)
    simp only [List.map_cons, List.sum_cons, List.length_cons]
    omega

/-- After probing a queue has one packet. -/
theorem SysInv.settled {H : List (Nat × ObjOracle × DemuxOp)} {names : List (String × Bool)} {S : ObjSystem} {es : List Entry}
    (h : SysInv H names S es) (hc : S.AllCompleted) : S.waiting ≤ S.trackCount := by
  rw [h.waiting, List.length_flatMap]
  unfold ObjSystem.trackCount
  rw [h.cores, List.map_map]
  refine sum_map_le _ _ _ fun x hx => ?_
  have ok := h.ok x hx
  obtain ⟨g, hr⟩ := h.reached hx
  have hi := Demuxer.Reached.inv hr
  have hcx : x.s.completed = true := ok.same.1.trans (hc x.core (by rw [h.cores]; exact List.mem_map_of_mem hx))
  have hq := (Demuxer.Reached.micros hr).queues_le (Demuxer.Inv.new _ _) (Nat.le_refl _)
  have hs := sum_short x.s.packets (hi.short hcx)
  show x.l.length ≤ x.core.base.tracks.tracks.length
  rw [← ok.same.2]
  have hl : x.l.length = (x.s.packets.map List.length).sum := by
    unfold Entry.l
    rw [List.length_flatMap, ok.packets, List.map_map]
    congr 1
    refine List.map_congr_left fun t ht => ?_
    simpa using congrArg List.length (ok.rows t ht).2
  omega

/-- Tracks are the same from the end of probing on. -/
theorem SysInv.frozen {H H' : List (Nat × ObjOracle × DemuxOp)} {names : List (String × Bool)} {S S' : ObjSystem} {es es' : List Entry}
    (h : SysInv H names S es) (h' : SysInv H' names S' es') (ho : Onward es es') (hc : S.AllCompleted) :
    S'.AllCompleted ∧ S'.trackCount = S.trackCount := by
  have key : ∀ (j : Nat) y, es'[j]? = some y → ∃ x, es[j]? = some x ∧ y.core.base.completed = true ∧ y.core.base.tracks = x.core.base.tracks := by
    intro j y hy
    obtain ⟨x, hx, hxy⟩ := ho j y hy
    have okx := h.ok x (List.mem_of_getElem? hx)
    have oky := h'.ok y (List.mem_of_getElem? hy)
    have hcx : x.s.completed = true := okx.same.1.trans (hc x.core (by rw [h.cores]; exact List.mem_map_of_mem (List.mem_of_getElem? hx)))
    refine ⟨x, hx, ?_⟩
    rw [← oky.same.1, ← oky.same.2, ← okx.same.2]
    rcases hxy with hxy | ⟨o, e, hv, hr⟩
    · rw [hxy]; exact ⟨hcx, rfl⟩
    · obtain ⟨g, hg⟩ := h.reached (List.mem_of_getElem? hx)
      have := (Demuxer.run_micros hv (Demuxer.Reached.inv hg) hr).frozen hcx
      exact ⟨this.1, this.2.1⟩
  have hlen : es'.length = es.length := by
    have := congrArg List.length h'.names
    rw [h.names, List.length_map, List.length_map] at this
    exact this.symm
  refine ⟨fun c hcm => ?_, ?_⟩
  · rw [h'.cores, List.mem_map] at hcm
    obtain ⟨y, hy, rfl⟩ := hcm
    obtain ⟨j, hj⟩ := List.getElem?_of_mem hy
    obtain ⟨_, _, h1, _⟩ := key j y hj
    exact h1
  · unfold ObjSystem.trackCount
    rw [h.cores, h'.cores, List.map_map, List.map_map]
    congr 1
    refine List.ext_getElem (by simp [hlen]) fun j h1 h2 => ?_
    rw [List.length_map] at h1 h2
    obtain ⟨x, hx, _, h3⟩ := key j es'[j] (List.getElem?_eq_getElem h1)
    rw [List.getElem?_eq_getElem h2, Option.some.injEq] at hx
    simp only [List.getElem_map, Function.comp_apply]
    rw [h3, hx]

end Avf
