import Verif.Lemmas.DemuxerPanics
import Verif.Lemmas.DemuxerQueue
import Verif.Spec.DemuxerPipe
/-! # Helper lemmas for C101: steps of a demuxer whose handler may panic -/
namespace Avf
open Go
namespace Demuxer
open DM

/-- The part of the invariant that does not depend on the handler. -/
structure Loose (s : Demuxer) : Prop where
  index : ∀ (i : Nat) t, s.tracks.tracks[i]? = some t → t.index = i
  keys : s.bufferOf.map Prod.fst = (List.range s.tracks.tracks.length).map fun (i : Nat) => (i : Int)
  known : ∀ q ∈ s.packets, ∀ p ∈ q, Known s p

theorem Loose.inv {s : Demuxer} (h : Loose s) (hc : s.completed = false) : Inv s :=
  ⟨h.index, h.keys, h.known, fun h => by rw [hc] at h; cases h⟩

theorem Loose.inv0 {s : Demuxer} (h : Loose s) : Inv { s with completed := false } :=
  ⟨h.index, h.keys, h.known, fun h => by cases h⟩

theorem Inv.loose {s : Demuxer} (h : Inv s) : Loose s := ⟨h.index, h.keys, h.known⟩

theorem Loose.range {s : Demuxer} (h : Loose s) {p : AVPacket} (hk : Known s p) : 0 ≤ p.index ∧ p.index < s.tracks.tracks.length :=
  h.inv0.range (p := p) hk

/-- The packet as it is delivered when `p` follows. -/
def lasting (x p : AVPacket) : AVPacket := { x with duration := wrap64 (p.dts - x.dts) }

/-- The small steps that every operation is made of when the handler may panic. -/
inductive FMicro (f : Panicky) : Demuxer → Demuxer → Prop where
  | quiet (s : Demuxer) (os : List Int) (pd : Int) : FMicro f s { s with orderedStreams := os, probeDuration := pd }
  | register (s : Demuxer) (t : AVStream) (b : Int) (hc : s.completed = false) (ht : t.index = s.tracks.tracks.length) :
      FMicro f s { s with tracks := ⟨s.tracks.tracks ++ [t]⟩, bufferOf := s.bufferOf ++ [(t.index, b)] }
  | reject (s : Demuxer) (b : Int) : FMicro f s (s.call [.discardBack b])
  | queue (s : Demuxer) (p : AVPacket) (hk : Known s p)
      (hc : s.completed = false ∨ s.packets[slot s.packets p]? = none ∨ s.packets[slot s.packets p]? = some []) :
      FMicro f s { s with packets := push s.packets p, calls := s.calls ++ [.accepted p] }
  | live (s : Demuxer) (p x : AVPacket) (q : List AVPacket) (r : List Call) (hc : s.completed = true) (hk : Known s p)
      (hq : s.packets[slot s.packets p]? = some (q ++ [x]))
      (hr : r = [.packet (lasting x p)] ∨ r = fwdCalls s (lasting x p))
      (hs : s.autoFree = true → GivenBack f (s.calls ++ [.accepted p]) → GivenBack f (s.calls ++ .accepted p :: r)) :
      FMicro f s { s with packets := s.packets.set (slot s.packets p) (q ++ [p]), calls := s.calls ++ .accepted p :: r }
  | announce (s : Demuxer) (ts : List AVStream) (pre : List Call) (hc : s.completed = false) (ht : s.tracks.tracks ≠ []) (hne : pre ≠ [])
      (hts : List.Forall₂ Tuned s.tracks.tracks ts) (hp : pre <+: ts.map .newTrack ++ [.trackComplete]) :
      FMicro f s { s with completed := true, tracks := ⟨ts⟩, calls := s.calls ++ pre }
  | drain (s : Demuxer) (ts : List AVStream) (rs : List AVPacket) (cs : List Call) (hc : s.completed = false) (ht : s.tracks.tracks ≠ [])
      (hts : List.Forall₂ Tuned s.tracks.tracks ts) (hp : rs.Perm (s.packets.flatMap fun q => q.take (q.length - 1)))
      (hcs : cs = rs.flatMap (fwdCalls s) ∨ ∃ l p r, rs = l ++ p :: r ∧ cs = l.flatMap (fwdCalls s) ++ [.packet p])
      (hs : s.autoFree = true → GivenBack f (s.calls ++ ts.map .newTrack ++ [.trackComplete]) →
        GivenBack f (s.calls ++ ts.map .newTrack ++ [.trackComplete] ++ cs)) :
      FMicro f s { s with
        completed := true, tracks := ⟨ts⟩, packets := s.packets.map fun q => q.drop (q.length - 1)
        calls := s.calls ++ (ts.map .newTrack ++ .trackComplete :: cs) }
  | notFound (s : Demuxer) (hc : s.completed = false) (ht : s.tracks.tracks = []) :
      FMicro f s { s with completed := true, calls := s.calls ++ [.trackNotFound] }

abbrev FMicros (f : Panicky) := Relation.ReflTransGen (FMicro f)

theorem Loose.tuned {s : Demuxer} (h : Loose s) {ts : List AVStream} (hts : List.Forall₂ Tuned s.tracks.tracks ts)
    (ps : List (List AVPacket)) (hps : ∀ q ∈ ps, ∀ p ∈ q, Known s p) (cs : List Call) :
    Loose { s with completed := true, tracks := ⟨ts⟩, packets := ps, calls := cs } := by
  refine ⟨fun i t ht => ?_, ?_, hps⟩
  · obtain ⟨u, hu, he⟩ := forall₂_tuned_index hts i t ht
    rw [he]; exact h.index i u hu
  · have : ts.length = s.tracks.tracks.length := hts.length_eq.symm
    show s.bufferOf.map Prod.fst = _
    rw [this]; exact h.keys

theorem Loose.micro {f : Panicky} {s s' : Demuxer} (h : Loose s) (m : FMicro f s s') : Loose s' := by
  cases m with
  | quiet os pd => exact ⟨h.index, h.keys, h.known⟩
  | reject b => exact ⟨h.index, h.keys, h.known⟩
  | register t b hc ht => exact ((h.inv hc).micro (.register s t b hc ht)).loose
  | queue p hk hc =>
    refine ⟨h.index, h.keys, ?_⟩
    intro q hq x hx
    rcases mem_push hq hx with rfl | ⟨q', hq', y, hy, e1, e2⟩
    · exact hk
    · exact (h.known q' hq' y hy).congr e1 e2
  | live p x q r hc hk hq hr hs =>
    refine ⟨h.index, h.keys, ?_⟩
    intro q' hq' y hy
    have hk' : Known s y := by
      rcases List.mem_or_eq_of_mem_set hq' with hm | rfl
      · exact h.known q' hm y hy
      · rcases List.mem_append.1 hy with hy | hy
        · exact h.known _ (List.mem_of_getElem? hq) y (by simp [hy])
        · rw [List.mem_singleton] at hy; rw [hy]; exact hk
    exact hk'
  | announce ts pre hc ht hne hts hp => exact h.tuned hts s.packets h.known _
  | drain ts rs cs hc ht hts hp hcs hs =>
    refine h.tuned hts _ ?_ _
    intro q hq p hp
    obtain ⟨q', hq', rfl⟩ := List.mem_map.1 hq
    exact h.known q' hq' p (List.mem_of_mem_drop hp)
  | notFound hc ht => exact ⟨h.index, h.keys, h.known⟩

theorem Loose.micros {f : Panicky} {s s' : Demuxer} (h : Loose s) (m : FMicros f s s') : Loose s' := by
  induction m with
  | refl => exact h
  | tail _ m ih => exact ih.micro m

/-! ## Outcomes -/

/-- The last call is one of the handler's that panicked. -/
def Blamed (f : Panicky) (s : Demuxer) : Prop :=
  ∃ cs c, s.calls = cs ++ [c] ∧ c ∈ toHandler s.calls ∧ f.handler cs c = true

theorem mem_toHandler {cs : List Call} {c : Call} (h : c ∈ cs) (hc : toHandler [c] = [c]) : c ∈ toHandler cs := by
  unfold toHandler at *
  rw [List.mem_filter]
  refine ⟨h, ?_⟩
  cases c <;> first | rfl | cases hc

theorem Blamed.mk' {f : Panicky} {s : Demuxer} {cs : List Call} {c : Call} (hs : s.calls = cs ++ [c]) (hc : toHandler [c] = [c])
    (hf : f.handler cs c = true) : Blamed f s := ⟨cs, c, hs, mem_toHandler (by rw [hs]; simp) hc, hf⟩

theorem forwardPacketP_cases (f : Panicky) {s : Demuxer} {p : AVPacket} (hk : Known s p) :
    f.handler s.calls (.packet p) = false ∧ forwardPacketP f p s = .done () (s.call (fwdCalls s p)) ∨
    f.handler s.calls (.packet p) = true ∧ forwardPacketP f p s = .panicked (s.call [.packet p]) := by
  have hk' : (s.call [.packet p]).bufferOf.lookup p.index = some p.bufferIndex := hk
  unfold forwardPacketP
  rw [bind_apply, tell]
  by_cases hf : f.handler s.calls (.packet p) = true
  · rw [if_pos hf]; exact Or.inr ⟨hf, rfl⟩
  · rw [if_neg hf]
    left
    refine ⟨by simpa using hf, ?_⟩
    dsimp only
    rw [get_bind]
    unfold fwdCalls
    by_cases ha : s.autoFree = true
    · rw [if_pos (show (s.call [.packet p]).autoFree = true from ha), if_pos ha, hk']
      simp [DM.modify, call]
    · rw [if_neg (show ¬ (s.call [.packet p]).autoFree = true from ha), if_neg ha]
      rfl

theorem _root_.Avf.GivenBack.fwd {f : Panicky} {s : Demuxer} {cs : List Call} {p : AVPacket} (ha : s.autoFree = true) (h : GivenBack f cs)
    (hf : f.handler cs (.packet p) = false) : GivenBack f (cs ++ fwdCalls s p) := by
  unfold fwdCalls
  rw [if_pos ha]
  exact .released cs p hf h

theorem forwardAllP_cases (f : Panicky) {ps : List AVPacket} : ∀ {s : Demuxer}, (∀ p ∈ ps, Known s p) →
    (s.autoFree = true → GivenBack f s.calls → GivenBack f (s.calls ++ ps.flatMap (fwdCalls s))) ∧
      forwardAllP f ps s = .done () (s.call (ps.flatMap (fwdCalls s))) ∨
    ∃ l p r, ps = l ++ p :: r ∧ f.handler (s.calls ++ l.flatMap (fwdCalls s)) (.packet p) = true ∧
      (s.autoFree = true → GivenBack f s.calls → GivenBack f (s.calls ++ (l.flatMap (fwdCalls s) ++ [.packet p]))) ∧
      forwardAllP f ps s = .panicked (s.call (l.flatMap (fwdCalls s) ++ [.packet p])) := by
  induction ps with
  | nil => intro s _; left; exact ⟨fun _ h => by simpa using h, by simp [forwardAllP, pure_apply, call]⟩
  | cons p ps ih =>
    intro s hk
    unfold forwardAllP
    rw [bind_apply]
    rcases forwardPacketP_cases f (hk p (by simp)) with ⟨hf, h⟩ | ⟨hf, h⟩
    · rw [h]
      dsimp only
      have hfw : fwdCalls (s.call (fwdCalls s p)) = fwdCalls s := by funext q; rfl
      have hset : s.autoFree = true → GivenBack f s.calls → GivenBack f (s.call (fwdCalls s p)).calls := fun ha hs => hs.fwd ha hf
      rcases ih (s := s.call (fwdCalls s p)) (fun q hq => hk q (by simp [hq])) with ⟨hs, h⟩ | ⟨l, x, r, e, hf, hs, h⟩
      · left
        refine ⟨fun ha h0 => ?_, by rw [h, hfw]; simp [call]⟩
        have := hs ha (hset ha h0)
        rw [hfw] at this
        simpa [call] using this
      · right
        refine ⟨p :: l, x, r, by rw [e]; rfl, ?_, fun ha h0 => ?_, ?_⟩
        · rw [hfw] at hf
          simpa [call] using hf
        · have := hs ha (hset ha h0)
          rw [hfw] at this
          simpa [call] using this
        · rw [h, hfw]; simp [call]
    · right
      refine ⟨[], p, ps, rfl, by simpa using hf, fun _ hs => .failed _ _ hf hs, ?_⟩
      rw [h]; rfl

theorem tellAll_cases (f : Panicky) {cs : List Call} : ∀ {s : Demuxer},
    tellAll f cs s = .done () (s.call cs) ∨
    ∃ l c r, cs = l ++ c :: r ∧ f.handler (s.calls ++ l) c = true ∧ tellAll f cs s = .panicked (s.call (l ++ [c])) := by
  induction cs with
  | nil => intro s; left; simp [tellAll, pure_apply, call]
  | cons c cs ih =>
    intro s
    unfold tellAll
    rw [bind_apply, tell]
    by_cases hf : f.handler s.calls c = true
    · rw [if_pos hf]
      exact Or.inr ⟨[], c, cs, rfl, by simpa using hf, rfl⟩
    · rw [if_neg hf]
      dsimp only
      rcases ih (s := s.call [c]) with h | ⟨l, x, r, e, hf, h⟩
      · left; rw [h]; simp [call]
      · right
        refine ⟨c :: l, x, r, by rw [e]; rfl, by simpa [call] using hf, ?_⟩
        rw [h]; simp [call]

/-- `OnProbeComplete` with any handler. -/
theorem completeP_cases (f : Panicky) {o : Oracle} (ho : o.Valid) {s : Demuxer} (h : Loose s) :
    ∃ s', FMicros f s s' ∧ (onProbeCompleteP f o s = .done () s' ∨ onProbeCompleteP f o s = .panicked s' ∧ Blamed f s') := by
  unfold onProbeCompleteP
  rw [get_bind]
  by_cases hc : s.completed = true
  · rw [if_pos hc]; exact ⟨s, .refl, Or.inl rfl⟩
  · rw [if_neg hc, modify_bind]
    have hc : s.completed = false := by simpa using hc
    by_cases ht : s.tracks.size = 0
    · rw [if_pos ht]
      have ht' : s.tracks.tracks = [] := List.length_eq_zero_iff.1 ht
      refine ⟨_, .single (.notFound s hc ht'), ?_⟩
      unfold tell
      split
      next hf => exact Or.inr ⟨rfl, Blamed.mk' rfl rfl hf⟩
      · exact Or.inl rfl
    · have ht' : s.tracks.tracks ≠ [] := fun e => ht (by show s.tracks.tracks.length = 0; rw [e]; rfl)
      rw [if_neg ht, bind_apply, prepareTracksP, prepare_eq]
      dsimp only
      rw [get_bind, bind_apply]
      have hts := tuned_map s.tracks.tracks (retune o.undef s.packets) (retune_tuned _ _)
      rcases tellAll_cases f (cs := (s.tracks.tracks.map (retune o.undef s.packets)).map Call.newTrack)
        (s := { s with completed := true, tracks := ⟨s.tracks.tracks.map (retune o.undef s.packets)⟩ }) with h1 | ⟨l, c, r, e, hf, h1⟩
      · rw [h1]
        dsimp only
        rw [bind_apply, tell]
        split
        · rename_i a s1 heq
          split at heq
          · cases heq
          · injection heq with _ heq
            subst heq
            rw [get_bind, modify_bind]
            have hd1 : (fun q => (Demuxer.drain q).1) = fun q : List AVPacket => q.take (q.length - 1) := by funext q; rw [drain_eq]
            have hd2 : (fun q => (Demuxer.drain q).2) = fun q : List AVPacket => q.drop (q.length - 1) := by funext q; rw [drain_eq]
            rw [hd1, hd2]
            rcases forwardAllP_cases f (ps := o.sort (s.packets.flatMap fun q => q.take (q.length - 1)))
              (s := { s with
                completed := true, tracks := ⟨s.tracks.tracks.map (retune o.undef s.packets)⟩,
                packets := s.packets.map fun q => q.drop (q.length - 1),
                calls := s.calls ++ (s.tracks.tracks.map (retune o.undef s.packets)).map Call.newTrack ++ [.trackComplete] }) (by
                intro p hp
                have := (ho.sortPerm _).subset hp
                obtain ⟨q, hq, hpq⟩ := List.mem_flatMap.1 this
                exact h.known q hq p (List.mem_of_mem_take hpq)) with ⟨hs, h2⟩ | ⟨l, p, r, e, hf, hs, h2⟩
            · refine ⟨_, .single (.drain s _ _ _ hc ht' hts (ho.sortPerm _) (Or.inl rfl) hs), Or.inl ?_⟩
              refine h2.trans ?_
              simp only [call, List.append_assoc, List.cons_append, List.nil_append]
              rfl
            · refine ⟨_, .single (.drain s _ _ _ hc ht' hts (ho.sortPerm _) (Or.inr ⟨l, p, r, e, rfl⟩) hs), Or.inr ⟨?_, ?_⟩⟩
              · refine h2.trans ?_
                simp only [call, List.append_assoc, List.cons_append, List.nil_append]
                rfl
              · refine Blamed.mk' (cs := s.calls ++ (s.tracks.tracks.map (retune o.undef s.packets)).map Call.newTrack ++ [.trackComplete] ++
                  l.flatMap (fwdCalls s)) (c := .packet p) ?_ rfl ?_
                · simp
                · exact hf
        · rename_i s1 heq
          split at heq
          next hf =>
            injection heq with heq
            subst heq
            refine ⟨_, .single (.announce s _ _ hc ht' (by simp) hts List.prefix_rfl), Or.inr ⟨?_, ?_⟩⟩
            · simp only [call, List.append_assoc]
            · exact Blamed.mk' (cs := s.calls ++ (s.tracks.tracks.map (retune o.undef s.packets)).map Call.newTrack) (c := .trackComplete)
                (by simp) rfl hf
          · cases heq
      · rw [h1]
        dsimp only
        have hc' : toHandler [c] = [c] := by
          have : c ∈ (s.tracks.tracks.map (retune o.undef s.packets)).map Call.newTrack := by rw [e]; simp
          obtain ⟨t, _, rfl⟩ := List.mem_map.1 this
          rfl
        refine ⟨_, .single (.announce s _ (l ++ [c]) hc ht' (by simp) hts ⟨r ++ [.trackComplete], by rw [e]; simp⟩), Or.inr ⟨?_, ?_⟩⟩
        · rfl
        · exact Blamed.mk' (cs := s.calls ++ l) (c := c) (by simp) hc' hf

theorem processP_first (f : Panicky) (o : Oracle) {s : Demuxer} {p : AVPacket} (hi : 0 ≤ p.index)
    (h : s.packets[slot s.packets p]? = none ∨ s.packets[slot s.packets p]? = some []) :
    processBufferedPacketP f o p s = .done () { s with packets := push s.packets p } := by
  unfold processBufferedPacketP push
  rw [get_bind]
  by_cases hlt : p.index < s.packets.length
  · have hsl : slot s.packets p = p.index.toNat := by unfold slot; rw [if_pos hlt]
    have hl : p.index.toNat < s.packets.length := by omega
    rw [hsl, List.getElem?_eq_getElem hl] at h
    have he : s.packets[p.index.toNat] = [] := by simpa using h
    rw [if_pos hlt, if_pos hlt]
    unfold enqueueP
    have hp : idxI s.packets p.index = ok [] := by
      unfold idxI
      rw [if_neg (by omega), idx_eq_ok, List.getElem?_eq_getElem hl, he]
    rw [get_bind, compute_bind, hp]
    dsimp only
    rw [modify_bind, if_pos (by simp)]
    rw [List.modify_eq_set_getElem?, List.getElem?_eq_getElem hl, he]
    rfl
  · rw [if_neg hlt, if_neg hlt, modify_bind]
    unfold enqueueP
    rw [get_bind, compute_bind]
    dsimp only
    rw [idxI_natCast, idx_middle]
    dsimp only
    rw [modify_bind, if_pos (by simp), Int.toNat_natCast, set_middle]
    rfl

theorem processP_next (f : Panicky) (o : Oracle) {s : Demuxer} {p x : AVPacket} {q : List AVPacket} (hi : 0 ≤ p.index)
    (h : s.packets[slot s.packets p]? = some (q ++ [x])) :
    processBufferedPacketP f o p s =
      if s.completed then
        forwardPacketP f (lasting x p) { s with packets := s.packets.set (slot s.packets p) (q ++ [p]) }
      else if max s.probeDuration 200 ≤ probed o.undef (q ++ [lasting x p]) then
        onProbeCompleteP f o { s with packets := push s.packets p }
      else .done () { s with packets := push s.packets p } := by
  have hlt : p.index < s.packets.length := by
    by_contra hge
    unfold slot at h
    rw [if_neg hge, List.getElem?_eq_none (by omega)] at h
    cases h
  have hsl : slot s.packets p = p.index.toNat := by unfold slot; rw [if_pos hlt]
  rw [hsl] at h ⊢
  have hl : p.index.toNat < s.packets.length := by omega
  have hpush : push s.packets p = s.packets.set p.index.toNat (q ++ [lasting x p, p]) := by
    unfold push
    rw [if_pos hlt, List.modify_eq_set_getElem?, h]
    show s.packets.set _ (stamp (q ++ [x]) p) = _
    rw [stamp_concat]; rfl
  unfold processBufferedPacketP
  rw [get_bind, if_pos hlt]
  unfold enqueueP
  have hp : idxI s.packets p.index = ok (q ++ [x]) := by
    unfold idxI; rw [if_neg (by omega), idx_eq_ok]; exact h
  rw [get_bind, compute_bind, hp]
  dsimp only
  rw [modify_bind, if_neg (by simp), List.append_assoc]
  have hprev : (((q ++ ([x] ++ [p])).length : Nat) : Int) - 2 = (q.length : Int) := by simp
  rw [hprev, idxI_natCast, show q ++ ([x] ++ [p]) = q ++ x :: [p] from rfl, idx_middle, compute_bind]
  dsimp only
  rw [modify_bind, Int.toNat_natCast, set_middle, set_set]
  show (if s.completed = true then _ else _ : DM Unit) _ = _
  by_cases hc : s.completed = true
  · rw [if_pos hc, if_pos hc, idxI_natCast, idx_middle, compute_bind]
    have : (q ++ lasting x p :: [p]).eraseIdx q.length = q ++ [p] := by
      rw [List.eraseIdx_append_of_length_le (Nat.le_refl _)]; simp
    show (modify _ >>= _ : DM Unit) _ = _
    rw [modify_bind]
    dsimp only
    rw [set_set]
    show forwardPacketP f (lasting x p) { s with packets := s.packets.set p.index.toNat ((q ++ lasting x p :: [p]).eraseIdx q.length) } = _
    rw [this]
  · rw [if_neg hc, if_neg hc]
    have h2 : ((q.length : Int) + 1).toNat = q.length + 1 := by omega
    have h3 : (q ++ lasting x p :: [p]).take (q.length + 1) = q ++ [lasting x p] := by
      rw [List.take_append, List.take_of_length_le (by omega)]
      simp
    show (if probed o.undef ((q ++ lasting x p :: [p]).take ((q.length : Int) + 1).toNat) ≥
      max (max s.probeDuration 200) (probed o.undef ((q ++ lasting x p :: [p]).take ((q.length : Int) + 1).toNat)) then _ else _ : DM Unit) _ = _
    rw [h2, h3, hpush]
    by_cases hd : max s.probeDuration 200 ≤ probed o.undef (q ++ [lasting x p])
    · rw [if_pos ((max_probe _ _).2 hd), if_pos hd]; rfl
    · rw [if_neg (fun hh => hd ((max_probe _ _).1 hh)), if_neg hd]
      rfl

theorem processP_cases (f : Panicky) {o : Oracle} (ho : o.Valid) {s : Demuxer} {p : AVPacket} (h : Loose s) (hk : Known s p) :
    ∃ s', FMicros f s s' ∧ (processBufferedPacketP f o p (s.call [.accepted p]) = .done () s' ∨
      processBufferedPacketP f o p (s.call [.accepted p]) = .panicked s' ∧ Blamed f s') := by
  have hi := (h.range hk).1
  have first : s.packets[slot s.packets p]? = none ∨ s.packets[slot s.packets p]? = some [] →
      ∃ s', FMicros f s s' ∧ (processBufferedPacketP f o p (s.call [.accepted p]) = .done () s' ∨
        processBufferedPacketP f o p (s.call [.accepted p]) = .panicked s' ∧ Blamed f s') := fun e =>
    ⟨_, .single (.queue s p hk (Or.inr e)), Or.inl (processP_first f o (s := s.call [.accepted p]) hi e)⟩
  cases e : s.packets[slot s.packets p]? with
  | none => exact first (Or.inl e)
  | some q =>
    rcases List.eq_nil_or_concat q with rfl | ⟨r, x, rfl⟩
    · exact first (Or.inr e)
    · rw [List.concat_eq_append] at e
      rw [processP_next f o (s := s.call [.accepted p]) hi e]
      by_cases hc : s.completed = true
      · rw [if_pos (show (s.call [.accepted p]).completed = true from hc)]
        have hkx : Known s (lasting x p) := h.known _ (List.mem_of_getElem? e) x (by simp)
        rcases forwardPacketP_cases f (s := { s.call [.accepted p] with packets := s.packets.set (slot s.packets p) (r ++ [p]) }) hkx with ⟨hf, h1⟩ | ⟨hf, h1⟩
        · refine ⟨_, .single (.live s p x r _ hc hk e (Or.inr rfl) fun ha hs => by simpa using hs.fwd ha hf), Or.inl ?_⟩
          refine h1.trans ?_
          simp only [call, List.append_assoc, List.cons_append, List.nil_append]
          rfl
        · refine ⟨_, .single (.live s p x r _ hc hk e (Or.inl rfl) fun ha hs => by simpa [call] using GivenBack.failed _ _ hf hs), Or.inr ⟨?_, ?_⟩⟩
          · refine h1.trans ?_
            simp only [call, List.append_assoc, List.cons_append, List.nil_append]
          · exact Blamed.mk' (cs := s.calls ++ [.accepted p]) (c := .packet (lasting x p)) (by simp) rfl hf
      · have hc : s.completed = false := by simpa using hc
        rw [if_neg (by rw [show (s.call [.accepted p]).completed = false from hc]; simp)]
        have hm : FMicro f s { s with packets := push s.packets p, calls := s.calls ++ [.accepted p] } := .queue s p hk (Or.inl hc)
        split
        · obtain ⟨s', m, h1⟩ := completeP_cases f ho (h.micro hm)
          exact ⟨s', .head hm m, h1⟩
        · exact ⟨_, .single hm, Or.inl rfl⟩

/-! ## One operation -/

theorem Front.fmicros {f : Panicky} {s s1 : Demuxer} {b : Int} {t : Option AVStream} (h : Front s b t s1) : FMicros f s s1 := by
  cases h with
  | none => exact .refl
  | old => exact .refl
  | new u hc hb ht => exact .single (.register s u b hc ht)

theorem findTrack_loose {o : Oracle} (ho : o.Valid) {s : Demuxer} (h : Loose s) {b : Int} :
    ∃ t, s.findTrackByBufferIndex o b = ok t ∧ ∀ u, t = some u → s.bufferOf.lookup u.index = some b :=
  findTrack_known ho h.inv0

theorem register_loose {f : Panicky} {s : Demuxer} (h : Loose s) (b : Int) (t : AVStream) (ht : t.index = s.tracks.tracks.length) :
    FMicros f s (s.register b t).2 ∧ ∀ u, (s.register b t).1 = some u → (s.register b t).2.bufferOf.lookup u.index = some b := by
  by_cases hc : s.completed = true
  · unfold register addTrack
    rw [if_pos hc]; exact ⟨.refl, by simp⟩
  · have hc : s.completed = false := by simpa using hc
    refine ⟨?_, (register_micros (h.inv hc) b t ht).2⟩
    unfold register addTrack
    rw [if_neg (by rw [hc]; simp)]
    simp only [TrackManager.add, if_true]
    have hm := (h.inv hc).mapSet b
    rw [← ht] at hm
    rw [hm]
    exact .single (.register s t b hc ht)

theorem register_loose' {f : Panicky} {s s' : Demuxer} (h : Loose s) {b : Int} {t0 : AVStream} {t : Option AVStream} (ht : t0.index = s.tracks.tracks.length)
    (hr : (ok (s.register b t0) : Go _) = ok (t, s')) : FMicros f s s' ∧ ∀ u, t = some u → s'.bufferOf.lookup u.index = some b := by
  have := register_loose (f := f) h b t0 ht
  injection hr with hr
  rw [hr] at this
  exact this

theorem audioTrack_loose {f : Panicky} {s s' : Demuxer} (h : Loose s) {b id tb : Int} {e : Option Bytes} {c : AudioConfig} {t : Option AVStream}
    (hr : s.createAudioTrack b id tb e c = ok (t, s')) : FMicros f s s' ∧ ∀ u, t = some u → s'.bufferOf.lookup u.index = some b := by
  unfold createAudioTrack at hr
  dsimp only at hr
  split at hr
  · split at hr
    · cases hr
    · split at hr
      · cases hr; exact ⟨.refl, by simp⟩
      · cases hr
      · exact register_loose' h rfl hr
  · exact register_loose' h rfl hr

theorem videoTrack_loose {f : Panicky} {o : Oracle} {s s' : Demuxer} (h : Loose s) {b id tb : Int} {e : Option Bytes} {t : Option AVStream}
    (hr : s.createVideoTrack o b id tb e = ok (t, s')) : FMicros f s s' ∧ ∀ u, t = some u → s'.bufferOf.lookup u.index = some b := by
  unfold createVideoTrack at hr
  dsimp only at hr
  split at hr
  · cases hr; exact ⟨.refl, by simp⟩
  · cases hr
  · exact register_loose' h rfl hr

theorem audioFront_loose {f : Panicky} {o : Oracle} (ho : o.Valid) {s s1 : Demuxer} (h : Loose s) {b id : Int} {d : Bytes} {t : Option AVStream}
    (hr : audioFront o s b id d = ok (t, s1)) : FMicros f s s1 ∧ ∀ u, t = some u → s1.bufferOf.lookup u.index = some b := by
  unfold audioFront at hr
  obtain ⟨t0, e0, hk0⟩ := findTrack_loose ho h (b := b)
  rw [e0, ok_bind] at hr
  split at hr
  · split at hr
    · cases hr; exact ⟨.refl, by simp⟩
    · cases hr
    · obtain ⟨tb, _, hr⟩ := bind_eq_ok.1 hr
      exact audioTrack_loose h hr
  · cases hr; exact ⟨.refl, hk0⟩

theorem videoFront_loose {f : Panicky} {o : Oracle} (ho : o.Valid) {s s1 : Demuxer} (h : Loose s) {b id : Int} {d : Bytes} {k : Bool} {t : Option AVStream}
    (hr : videoFront o s b id d k = ok (t, s1)) : FMicros f s s1 ∧ ∀ u, t = some u → s1.bufferOf.lookup u.index = some b := by
  unfold videoFront at hr
  obtain ⟨t0, e0, hk0⟩ := findTrack_loose ho h (b := b)
  rw [e0, ok_bind] at hr
  split at hr
  · obtain ⟨x, _, hr⟩ := bind_eq_ok.1 hr
    split at hr
    · obtain ⟨tb, _, hr⟩ := bind_eq_ok.1 hr
      exact videoTrack_loose h hr
    · cases hr; exact ⟨.refl, by simp⟩
  · cases hr; exact ⟨.refl, hk0⟩

/-- Why an operation panicked: the handler, the callback, or the demuxer itself. -/
def Reason (f : Panicky) (o : Oracle) (s : Demuxer) (e : DemuxOp) (s' : Demuxer) : Prop :=
  Blamed f s' ∨ (∃ p, f.preprocess p = true) ∨ s' = s.dropped e ∧ e.runP .none o s = .panicked s'

/-- One operation with any handler. -/
theorem runP_cases (f : Panicky) {o : Oracle} (ho : o.Valid) {s : Demuxer} (h : Loose s) (e : DemuxOp) :
    ∃ s', FMicros f s s' ∧ (e.runP f o s = .done () s' ∨ e.runP f o s = .panicked s' ∧ Reason f o s e s') := by
  have weak : ∀ {x : Outcome Unit}, (∃ s', FMicros f s s' ∧ (x = .done () s' ∨ x = .panicked s' ∧ Blamed f s')) →
      ∃ s', FMicros f s s' ∧ (x = .done () s' ∨ x = .panicked s' ∧ Reason f o s e s') := by
    rintro x ⟨s', m, hx | ⟨hx, hb⟩⟩
    · exact ⟨s', m, Or.inl hx⟩
    · exact ⟨s', m, Or.inr ⟨hx, Or.inl hb⟩⟩
  cases e with
  | findBufferIndex m =>
    simp only [DemuxOp.runP, DM.modify, findBufferIndex]
    split
    · exact ⟨s, .refl, Or.inl rfl⟩
    · exact ⟨_, .single (.quiet s _ _), Or.inl rfl⟩
  | setProbeDuration n => exact ⟨_, .single (.quiet s _ _), Or.inl rfl⟩
  | probeComplete => exact weak (completeP_cases f ho h)
  | tryCompleteProbe =>
    simp only [DemuxOp.runP]
    unfold Demuxer.tryCompleteProbeP
    rw [get_bind]
    dsimp only
    split
    · exact ⟨s, .refl, Or.inl rfl⟩
    · exact weak (completeP_cases f ho h)
  | newAudioTrack b id tb e c =>
    simp only [DemuxOp.runP]
    rw [bind_apply, onNewAudioTrackP_eq]
    cases hx : s.onNewAudioTrack b id tb e c with
    | ok x =>
      obtain ⟨t, s1⟩ := x
      refine ⟨s1, ?_, Or.inl rfl⟩
      unfold onNewAudioTrack at hx
      obtain ⟨⟨t', s2⟩, h1, h2⟩ := bind_eq_ok.1 hx
      have hm : FMicros f s s2 := by
        split at h1
        · exact (audioTrack_loose h h1).1
        · cases h1; exact .refl
      dsimp only at h2
      split at h2
      · cases h2; exact .tail hm (.reject s2 b)
      · cases h2; exact hm
    | err m =>
      refine ⟨s, .refl, Or.inr ⟨rfl, Or.inr (Or.inr ⟨rfl, ?_⟩)⟩⟩
      simp only [DemuxOp.runP]
      rw [bind_apply, onNewAudioTrackP_eq, hx]; rfl
    | panic =>
      refine ⟨s, .refl, Or.inr ⟨rfl, Or.inr (Or.inr ⟨rfl, ?_⟩)⟩⟩
      simp only [DemuxOp.runP]
      rw [bind_apply, onNewAudioTrackP_eq, hx]; rfl
  | newVideoTrack b id tb e =>
    simp only [DemuxOp.runP]
    rw [bind_apply, onNewVideoTrackP_eq]
    cases hx : s.onNewVideoTrack o b id tb e with
    | ok x =>
      obtain ⟨t, s1⟩ := x
      refine ⟨s1, ?_, Or.inl rfl⟩
      unfold onNewVideoTrack at hx
      obtain ⟨⟨t', s2⟩, h1, h2⟩ := bind_eq_ok.1 hx
      have hm : FMicros f s s2 := by
        split at h1
        · exact (videoTrack_loose h h1).1
        · cases h1; exact .refl
      dsimp only at h2
      split at h2
      · cases h2; exact .tail hm (.reject s2 b)
      · cases h2; exact hm
    | err m =>
      refine ⟨s, .refl, Or.inr ⟨rfl, Or.inr (Or.inr ⟨rfl, ?_⟩)⟩⟩
      simp only [DemuxOp.runP]
      rw [bind_apply, onNewVideoTrackP_eq, hx]; rfl
    | panic =>
      refine ⟨s, .refl, Or.inr ⟨rfl, Or.inr (Or.inr ⟨rfl, ?_⟩)⟩⟩
      simp only [DemuxOp.runP]
      rw [bind_apply, onNewVideoTrackP_eq, hx]; rfl
  | audioPacket b id d ts =>
    cases hf : audioFront o s b id d with
    | ok x =>
      obtain ⟨t, s1⟩ := x
      obtain ⟨m, hk⟩ := audioFront_loose ho h hf
      simp only [DemuxOp.runP]
      rw [onAudioPacketP, bind_apply, deferred, audioTrackP_eq, hf]
      cases t with
      | none => exact ⟨_, .tail m (.reject s1 b), Or.inl rfl⟩
      | some u =>
        obtain ⟨s', m', h'⟩ := processP_cases f ho (h.micros m) (p := audioPkt o b id d ts u) (hk u rfl)
        exact weak ⟨s', m.trans m', h'⟩
    | err m =>
      have hx : ∀ f, (DemuxOp.audioPacket b id d ts).runP f o s = .panicked (s.call [.discardBack b]) := fun f => by
        simp only [DemuxOp.runP]
        rw [onAudioPacketP, bind_apply, deferred, audioTrackP_eq, hf]; rfl
      exact ⟨_, .single (.reject s b), Or.inr ⟨hx f, Or.inr (Or.inr ⟨rfl, hx _⟩)⟩⟩
    | panic =>
      have hx : ∀ f, (DemuxOp.audioPacket b id d ts).runP f o s = .panicked (s.call [.discardBack b]) := fun f => by
        simp only [DemuxOp.runP]
        rw [onAudioPacketP, bind_apply, deferred, audioTrackP_eq, hf]; rfl
      exact ⟨_, .single (.reject s b), Or.inr ⟨hx f, Or.inr (Or.inr ⟨rfl, hx _⟩)⟩⟩
  | videoPacket b id d k dts pts =>
    cases hf : videoFront o s b id d k with
    | ok x =>
      obtain ⟨t, s1⟩ := x
      obtain ⟨m, hk⟩ := videoFront_loose ho h hf
      simp only [DemuxOp.runP]
      rw [onVideoPacketP, bind_apply, deferred, videoTrackP_eq, hf]
      cases t with
      | none => exact ⟨_, .tail m (.reject s1 b), Or.inl rfl⟩
      | some u =>
        dsimp only [Outcome.ofGo]
        rw [get_bind]
        by_cases hp : f.preprocess (videoPkt s1 b id d k dts pts u) = true
        · refine ⟨s1, m, Or.inr ⟨?_, Or.inr (Or.inl ⟨_, hp⟩)⟩⟩
          exact congrFun (if_pos hp) s1
        · obtain ⟨s', m', h'⟩ := processP_cases f ho (h.micros m) (p := o.preprocess (videoPkt s1 b id d k dts pts u))
            (by unfold Known; rw [ho.index, ho.buffer]; exact hk u rfl)
          refine weak ⟨s', m.trans m', ?_⟩
          unfold videoPkt at hp h'
          rw [if_neg hp]
          exact h'
    | err m =>
      have hx : ∀ f, (DemuxOp.videoPacket b id d k dts pts).runP f o s = .panicked (s.call [.discardBack b]) := fun f => by
        simp only [DemuxOp.runP]
        rw [onVideoPacketP, bind_apply, deferred, videoTrackP_eq, hf]; rfl
      exact ⟨_, .single (.reject s b), Or.inr ⟨hx f, Or.inr (Or.inr ⟨rfl, hx _⟩)⟩⟩
    | panic =>
      have hx : ∀ f, (DemuxOp.videoPacket b id d k dts pts).runP f o s = .panicked (s.call [.discardBack b]) := fun f => by
        simp only [DemuxOp.runP]
        rw [onVideoPacketP, bind_apply, deferred, videoTrackP_eq, hf]; rfl
      exact ⟨_, .single (.reject s b), Or.inr ⟨hx f, Or.inr (Or.inr ⟨rfl, hx _⟩)⟩⟩

theorem FMicro.autoFree {f : Panicky} {s s' : Demuxer} (m : FMicro f s s') : s'.autoFree = s.autoFree := by cases m <;> rfl

theorem FMicros.autoFree {f : Panicky} {s s' : Demuxer} (m : FMicros f s s') : s'.autoFree = s.autoFree := by
  induction m with
  | refl => rfl
  | tail _ m ih => rw [m.autoFree, ih]

theorem FMicro.completed {f : Panicky} {s s' : Demuxer} (m : FMicro f s s') (h : s.completed = true) : s'.completed = true := by
  cases m <;> first | exact h | rfl

theorem FMicros.completed {f : Panicky} {s s' : Demuxer} (m : FMicros f s s') (h : s.completed = true) : s'.completed = true := by
  induction m with
  | refl => exact h
  | tail _ m ih => exact m.completed ih

/-- Nothing is delivered, freed or discarded from a head by announcements. -/
theorem _root_.Avf.GivenBack.announce {f : Panicky} {cs : List Call} (h : GivenBack f cs) {pre : List Call} {ts : List AVStream}
    (hp : pre <+: ts.map .newTrack ++ [.trackComplete]) : GivenBack f (cs ++ pre) := by
  have key : ∀ (pre : List Call), (∀ c ∈ pre, delivered [c] = [] ∧ releases [c] = [] ∧ freed [c] = []) → GivenBack f (cs ++ pre) := by
    intro pre
    induction pre using List.reverseRecOn with
    | nil => intro _; simpa using h
    | append_singleton pre c ih =>
      intro hc
      rw [← List.append_assoc]
      obtain ⟨h1, h2, h3⟩ := hc c (by simp)
      exact .other _ c h1 h2 h3 (ih fun x hx => hc x (by simp [hx]))
  refine key pre fun c hc => ?_
  have := hp.subset hc
  rcases List.mem_append.1 this with h | h
  · obtain ⟨t, _, rfl⟩ := List.mem_map.1 h
    exact ⟨rfl, rfl, rfl⟩
  · rw [List.mem_singleton] at h
    rw [h]; exact ⟨rfl, rfl, rfl⟩

theorem _root_.Avf.GivenBack.micro {f : Panicky} {s s' : Demuxer} (ha : s.autoFree = true) (h : GivenBack f s.calls) (m : FMicro f s s') :
    GivenBack f s'.calls := by
  cases m with
  | quiet os pd => exact h
  | register t b hc ht => exact h
  | reject b => exact .other _ _ rfl rfl rfl h
  | queue p hk hc => exact .other _ _ rfl rfl rfl h
  | live p x q r hc hk hq hr hs => exact hs ha (.other _ _ rfl rfl rfl h)
  | announce ts pre hc ht hne hts hp => exact GivenBack.announce h hp
  | drain ts rs cs hc ht hts hp hcs hs =>
    have := hs ha (by rw [List.append_assoc]; exact GivenBack.announce h List.prefix_rfl)
    simpa using this
  | notFound hc ht => exact .other _ _ rfl rfl rfl h

/-- Everything delivered or queued has been taken, and nothing is there twice. -/
def AtMostOnce (s : Demuxer) : Prop :=
  List.Subperm ((delivered s.calls ++ s.packets.flatten).map bare) ((taken s.calls).map bare)

theorem delivered_announce {pre : List Call} {ts : List AVStream} (hp : pre <+: ts.map .newTrack ++ [.trackComplete]) :
    delivered pre = [] ∧ taken pre = [] := by
  have : ∀ c ∈ pre, delivered [c] = [] ∧ taken [c] = [] := by
    intro c hc
    rcases List.mem_append.1 (hp.subset hc) with h | h
    · obtain ⟨t, _, rfl⟩ := List.mem_map.1 h
      exact ⟨rfl, rfl⟩
    · rw [List.mem_singleton] at h
      rw [h]; exact ⟨rfl, rfl⟩
  clear hp
  induction pre with
  | nil => exact ⟨rfl, rfl⟩
  | cons c pre ih =>
    obtain ⟨h1, h2⟩ := ih fun x hx => this x (by simp [hx])
    obtain ⟨h3, h4⟩ := this c (by simp)
    rw [show c :: pre = [c] ++ pre from rfl, delivered_append, taken_append, h1, h2, h3, h4]
    exact ⟨rfl, rfl⟩

theorem delivered_fwdAll (s : Demuxer) (l : List AVPacket) : delivered (l.flatMap (fwdCalls s)) = l ∧ taken (l.flatMap (fwdCalls s)) = [] := by
  induction l with
  | nil => exact ⟨rfl, rfl⟩
  | cons p l ih =>
    rw [List.flatMap_cons, delivered_append, taken_append, ih.1, ih.2]
    unfold fwdCalls
    cases s.autoFree <;> exact ⟨rfl, rfl⟩

theorem AtMostOnce.micro {f : Panicky} {s s' : Demuxer} (hl : Loose s) (h : AtMostOnce s) (m : FMicro f s s') : AtMostOnce s' := by
  unfold AtMostOnce at *
  cases m with
  | quiet os pd => exact h
  | register t b hc ht => exact h
  | reject b =>
    show List.Subperm ((delivered (s.calls ++ _) ++ s.packets.flatten).map bare) ((taken (s.calls ++ _)).map bare)
    rw [delivered_reject, taken_reject]; exact h
  | queue p hk hc =>
    dsimp only
    rw [delivered_accept, taken_accept, List.map_append, List.map_append]
    rw [List.map_append] at h
    refine (List.Perm.append_left _ (push_bare s.packets p (hl.range hk).1)).subperm.trans ?_
    rw [← List.append_assoc]
    exact (List.subperm_append_right _).2 h
  | live p x q r hc hk hq hr hs =>
    dsimp only
    obtain ⟨rest, h1, h2⟩ := set_flatten_perm (r := q ++ [p]) hq
    have hd : delivered r = [lasting x p] ∧ taken r = [] := by
      rcases hr with rfl | rfl
      · exact ⟨rfl, rfl⟩
      · have := delivered_fwdAll s [lasting x p]
        simpa using this
    rw [show s.calls ++ Call.accepted p :: r = s.calls ++ [Call.accepted p] ++ r by simp]
    rw [delivered_append, taken_append, delivered_accept, taken_accept, hd.1, hd.2, List.append_nil]
    have h3 := (List.Perm.append_left (delivered s.calls) h1).map bare
    have h4 := h3.symm.subperm.trans h
    rw [List.map_append, List.map_append, List.map_append] at *
    refine (List.Perm.append_left _ (h2.map bare)).subperm.trans ?_
    refine List.Subperm.trans ?_ ((List.subperm_append_right _).2 h4)
    refine List.Perm.subperm ?_
    have hb : bare (lasting x p) = bare x := rfl
    simp only [List.map_append, List.map_cons, List.map_nil, List.append_assoc, List.cons_append, List.nil_append, hb]
    refine List.Perm.append_left _ ?_
    have e1 : (bare x :: (q.map bare ++ bare p :: rest.map bare)).Perm (q.map bare ++ (bare x :: (bare p :: rest.map bare))) :=
      List.perm_middle.symm
    refine e1.trans (List.Perm.append_left _ (List.Perm.cons _ ?_))
    exact List.perm_append_comm (l₁ := [bare p])
  | announce ts pre hc ht hne hts hp =>
    dsimp only
    rw [delivered_append, taken_append, (delivered_announce hp).1, (delivered_announce hp).2, List.append_nil, List.append_nil]
    exact h
  | drain ts rs cs hc ht hts hp hcs hs =>
    dsimp only
    have hd : (delivered cs).Sublist rs ∧ taken cs = [] := by
      rcases hcs with rfl | ⟨l, p, r, rfl, rfl⟩
      · exact ⟨by rw [(delivered_fwdAll s rs).1], (delivered_fwdAll s rs).2⟩
      · rw [delivered_append, taken_append, (delivered_fwdAll s l).1, (delivered_fwdAll s l).2]
        refine ⟨?_, rfl⟩
        show (l ++ [p]).Sublist _
        rw [show l ++ p :: r = (l ++ [p]) ++ r by simp]
        exact List.sublist_append_left _ _
    have hpre : ts.map Call.newTrack ++ Call.trackComplete :: cs = (ts.map Call.newTrack ++ [.trackComplete]) ++ cs := by simp
    have ha := delivered_announce (pre := ts.map Call.newTrack ++ [.trackComplete]) (ts := ts) List.prefix_rfl
    rw [hpre, delivered_append, taken_append, delivered_append, taken_append, ha.1, ha.2, hd.2]
    simp only [List.nil_append, List.append_nil]
    refine List.Subperm.trans ?_ h
    rw [List.append_assoc]
    refine List.Subperm.trans ?_
      ((List.Perm.append_left _ ((List.Perm.append_right _ hp).trans (split_flatten_perm s.packets))).map bare).subperm
    exact ((List.Sublist.append_left (List.Sublist.append_right hd.1 _) _).map bare).subperm
  | notFound hc ht =>
    dsimp only
    rw [delivered_append, taken_append]
    show List.Subperm ((delivered s.calls ++ [] ++ _).map _) ((taken s.calls ++ []).map _)
    rw [List.append_nil, List.append_nil]; exact h

/-- What has been announced: nothing, or a beginning of what there is to announce, then packets. -/
def Announced (s : Demuxer) : Prop :=
  (s.completed = false → toHandler s.calls = []) ∧
  (s.completed = true → ∃ pre ps, toHandler s.calls = pre ++ ps.map .packet ∧
    (s.tracks.tracks ≠ [] ∧ pre <+: s.tracks.tracks.map .newTrack ++ [.trackComplete] ∧ pre ≠ [] ∨
      s.tracks.tracks = [] ∧ pre = [.trackNotFound] ∧ ps = []))

theorem toHandler_announce {pre : List Call} {ts : List AVStream} (hp : pre <+: ts.map .newTrack ++ [.trackComplete]) : toHandler pre = pre := by
  unfold toHandler
  rw [List.filter_eq_self]
  intro c hc
  rcases List.mem_append.1 (hp.subset hc) with h | h
  · obtain ⟨t, _, rfl⟩ := List.mem_map.1 h
    rfl
  · rw [List.mem_singleton] at h
    rw [h]

/-- After the end of probing, tracks stay and the handler gets only packets. -/
theorem FMicro.after {f : Panicky} {s s' : Demuxer} (hl : Loose s) (m : FMicro f s s') (h : s.completed = true) :
    s'.tracks = s.tracks ∧ ∃ ps, toHandler s'.calls = toHandler s.calls ++ ps.map .packet ∧ (s.tracks.tracks = [] → ps = []) := by
  cases m with
  | quiet os pd => exact ⟨rfl, [], by simp, by simp⟩
  | register t b hc ht => rw [h] at hc; cases hc
  | reject b => exact ⟨rfl, [], by show toHandler (_ ++ _) = _; rw [toHandler_append]; rfl, by simp⟩
  | queue p hk hc => exact ⟨rfl, [], by show toHandler (_ ++ _) = _; rw [toHandler_append]; rfl, by simp⟩
  | live p x q r hc hk hq hr hs =>
    refine ⟨rfl, [lasting x p], ?_, fun ht => ?_⟩
    · have : toHandler r = [.packet (lasting x p)] := by
        rcases hr with rfl | rfl
        · rfl
        · exact toHandler_fwd s _
      show toHandler (s.calls ++ ([Call.accepted p] ++ r)) = _
      rw [toHandler_append, toHandler_append, this]; rfl
    · have := (hl.range hk)
      rw [ht] at this
      simp at this
      omega
  | announce ts pre hc ht hne hts hp => rw [h] at hc; cases hc
  | drain ts rs cs hc ht hts hp hcs hs => rw [h] at hc; cases hc
  | notFound hc ht => rw [h] at hc; cases hc

theorem tuned_ne_nil {l ts : List AVStream} (h : List.Forall₂ Tuned l ts) (hl : l ≠ []) : ts ≠ [] := by
  intro e
  rw [e] at h
  cases h
  exact hl rfl

theorem Announced.micro {f : Panicky} {s s' : Demuxer} (hl : Loose s) (h : Announced s) (m : FMicro f s s') : Announced s' := by
  by_cases hc : s.completed = true
  · have hc' := m.completed hc
    refine ⟨fun e => (by rw [hc'] at e; cases e), fun _ => ?_⟩
    obtain ⟨ht, ps, hps, he⟩ := m.after hl hc
    obtain ⟨pre, ps0, h0, hor⟩ := h.2 hc
    refine ⟨pre, ps0 ++ ps, by rw [hps, h0]; simp, ?_⟩
    rw [ht]
    rcases hor with hor | ⟨h1, h2, h3⟩
    · exact Or.inl hor
    · exact Or.inr ⟨h1, h2, by rw [h3, he h1]; rfl⟩
  · have hc : s.completed = false := by simpa using hc
    have h0 := h.1 hc
    have one : ∀ c : Call, toHandler [c] = [] → toHandler (s.calls ++ [c]) = [] := fun c e => by rw [toHandler_append, h0, e]; rfl
    cases m with
    | quiet os pd => exact ⟨fun _ => h0, fun e => by rw [hc] at e; cases e⟩
    | register t b hc' ht => exact ⟨fun _ => h0, fun e => by rw [show s.completed = true from e] at hc; cases hc⟩
    | reject b => exact ⟨fun _ => one _ rfl, fun e => by rw [show s.completed = true from e] at hc; cases hc⟩
    | queue p hk hq => exact ⟨fun _ => one _ rfl, fun e => by rw [show s.completed = true from e] at hc; cases hc⟩
    | live p x q r hc' hk hq hr hs => rw [hc] at hc'; cases hc'
    | announce ts pre hc' ht hne hts hp =>
      refine ⟨fun e => (by cases e), fun _ => ⟨pre, [], ?_, Or.inl ⟨tuned_ne_nil hts ht, hp, hne⟩⟩⟩
      show toHandler (s.calls ++ pre) = _
      rw [toHandler_append, h0, toHandler_announce hp]; simp
    | drain ts rs cs hc' ht hts hp hcs hs =>
      have : ∃ ps : List AVPacket, toHandler cs = ps.map Call.packet := by
        rcases hcs with rfl | ⟨l, p, r, _, rfl⟩
        · exact ⟨rs, toHandler_fwds s rs⟩
        · exact ⟨l ++ [p], by rw [toHandler_append, toHandler_fwds]; simp [toHandler]⟩
      obtain ⟨ps, hps⟩ := this
      refine ⟨fun e => (by cases e), fun _ => ⟨ts.map .newTrack ++ [.trackComplete], ps, ?_, Or.inl ⟨tuned_ne_nil hts ht, List.prefix_rfl, by simp⟩⟩⟩
      show toHandler (s.calls ++ (ts.map .newTrack ++ .trackComplete :: cs)) = _
      rw [show ts.map Call.newTrack ++ .trackComplete :: cs = (ts.map Call.newTrack ++ [.trackComplete]) ++ cs by simp, toHandler_append,
        toHandler_append, h0, toHandler_announce List.prefix_rfl, hps]
      rfl
    | notFound hc' ht =>
      refine ⟨fun e => (by cases e), fun _ => ⟨[.trackNotFound], [], ?_, Or.inr ⟨ht, rfl, rfl⟩⟩⟩
      show toHandler (s.calls ++ _) = _
      rw [toHandler_append, h0]; rfl

/-- What is before the last packet of a queue stays there. -/
theorem FMicro.stuck {f : Panicky} {s s' : Demuxer} (hl : Loose s) (m : FMicro f s s') (h : s.completed = true) {i : Nat} {q : List AVPacket} {x : AVPacket}
    (hq : s.packets[i]? = some (q ++ [x])) : ∃ y, s'.packets[i]? = some (q ++ [y]) := by
  cases m with
  | quiet os pd => exact ⟨x, hq⟩
  | register t b hc ht => rw [h] at hc; cases hc
  | reject b => exact ⟨x, hq⟩
  | queue p hk hc =>
    refine ⟨x, ?_⟩
    rcases hc with hc | hc
    · rw [h] at hc; cases hc
    · dsimp only
      unfold push
      unfold slot at hc
      have hr := (hl.range hk).1
      by_cases hlt : p.index < s.packets.length
      · rw [if_pos hlt] at hc ⊢
        rw [List.getElem?_modify, hq]
        have : p.index.toNat ≠ i := by
          intro e
          rw [e, hq] at hc
          rcases hc with hc | hc <;> simp at hc
        simp [this]
      · rw [if_neg hlt, List.getElem?_append_left (List.getElem?_eq_some_iff.1 hq).1]
        exact hq
  | live p z r cs hc hk hz hr hs =>
    dsimp only
    by_cases e : slot s.packets p = i
    · rw [e] at hz ⊢
      rw [hz] at hq
      injection hq with hq
      obtain ⟨rfl, _⟩ := List.append_inj' hq rfl
      exact ⟨p, by rw [List.getElem?_set_self (List.getElem?_eq_some_iff.1 hz).1]⟩
    · exact ⟨x, by rw [List.getElem?_set_ne e]; exact hq⟩
  | announce ts pre hc ht hne hts hp => rw [h] at hc; cases hc
  | drain ts rs cs hc ht hts hp hcs hs => rw [h] at hc; cases hc
  | notFound hc ht => rw [h] at hc; cases hc

/-! ## What a panic of the handler changes after the end of probing -/

theorem forwardP_both {f : Panicky} {s s' : Demuxer} {p : AVPacket} (hk : Known s p) (h : forwardPacketP f p s = .panicked s') :
    s'.calls.getLast? = some (.packet p) ∧ s'.autoFree = s.autoFree ∧
      forwardPacketP .none p s = .done () (s'.call (if s.autoFree then [.discardHead p.bufferIndex, .free p] else [])) := by
  rcases forwardPacketP_cases f hk with ⟨_, h1⟩ | ⟨_, h1⟩
  · rw [h1] at h; cases h
  · rw [h1] at h
    injection h with h
    subst h
    refine ⟨by simp [call], rfl, ?_⟩
    rcases forwardPacketP_cases .none hk with ⟨_, h2⟩ | ⟨h2, _⟩
    · rw [h2]; unfold fwdCalls; simp [call]
    · cases h2

theorem processP_both {f : Panicky} {o : Oracle} {s s' : Demuxer} {p : AVPacket} (hl : Loose s) (hc : s.completed = true) (hk : Known s p)
    (h : processBufferedPacketP f o p s = .panicked s') :
    ∃ x, s'.calls.getLast? = some (.packet x) ∧ s'.autoFree = s.autoFree ∧
      processBufferedPacketP .none o p s = .done () (s'.call (if s.autoFree then [.discardHead x.bufferIndex, .free x] else [])) := by
  have hi := (hl.range hk).1
  have first : (s.packets[slot s.packets p]? = none ∨ s.packets[slot s.packets p]? = some []) → False := fun e => by
    rw [processP_first f o hi e] at h; cases h
  cases e : s.packets[slot s.packets p]? with
  | none => exact absurd (Or.inl e) first
  | some q =>
    rcases List.eq_nil_or_concat q with rfl | ⟨r, x, rfl⟩
    · exact absurd (Or.inr e) first
    · rw [List.concat_eq_append] at e
      rw [processP_next f o hi e, if_pos hc] at h
      rw [processP_next .none o hi e, if_pos hc]
      have hkx : Known { s with packets := s.packets.set (slot s.packets p) (r ++ [p]) } (lasting x p) :=
        hl.known _ (List.mem_of_getElem? e) x (by simp)
      exact ⟨_, forwardP_both hkx h⟩

/-- After the end of probing a panic of the handler costs the releases that would have followed, nothing else. -/
theorem runP_both {f : Panicky} (hp : ∀ p, f.preprocess p = false) {o : Oracle} (ho : o.Valid) {s s' : Demuxer} (hl : Loose s)
    (hc : s.completed = true) {e : DemuxOp} (h : e.runP f o s = .panicked s') :
    e.runP .none o s = .panicked s' ∨ ∃ x, s'.calls.getLast? = some (.packet x) ∧
      e.runP .none o s = .done () (s'.call (if s.autoFree then [.discardHead x.bufferIndex, .free x] else [])) := by
  have complete : ∀ f : Panicky, onProbeCompleteP f o s = .done () s := fun f => by
    unfold onProbeCompleteP
    rw [get_bind, if_pos hc]; rfl
  cases e with
  | findBufferIndex m => exact Or.inl h
  | setProbeDuration n => exact Or.inl h
  | newAudioTrack b id tb e c => exact Or.inl h
  | newVideoTrack b id tb e => exact Or.inl h
  | probeComplete => rw [DemuxOp.runP, complete] at h; cases h
  | tryCompleteProbe =>
    simp only [DemuxOp.runP] at h
    unfold Demuxer.tryCompleteProbeP at h
    rw [get_bind] at h
    dsimp only at h
    split at h
    · cases h
    · rw [complete] at h; cases h
  | audioPacket b id d ts =>
    simp only [DemuxOp.runP] at h ⊢
    rw [onAudioPacketP, bind_apply, deferred, audioTrackP_eq] at h ⊢
    cases hf : audioFront o s b id d with
    | err m => rw [hf] at h; exact Or.inl h
    | panic => rw [hf] at h; exact Or.inl h
    | ok x =>
      obtain ⟨t, s1⟩ := x
      rw [hf] at h
      obtain ⟨m, hk⟩ := audioFront_loose (f := f) ho hl hf
      have hc1 : s1.completed = true ∧ s1.autoFree = s.autoFree := ⟨FMicros.completed m hc, FMicros.autoFree m⟩
      cases t with
      | none => exact Or.inl h
      | some u =>
        obtain ⟨x, h1, _, h2⟩ := processP_both (s := s1.call [.accepted (audioPkt o b id d ts u)])
          ⟨(hl.micros m).index, (hl.micros m).keys, (hl.micros m).known⟩ hc1.1 (p := audioPkt o b id d ts u) (hk u rfl) h
        refine Or.inr ⟨x, h1, h2.trans ?_⟩
        rw [show (s1.call [.accepted (audioPkt o b id d ts u)]).autoFree = s.autoFree from hc1.2]
  | videoPacket b id d k dts pts =>
    simp only [DemuxOp.runP] at h ⊢
    rw [onVideoPacketP, bind_apply, deferred, videoTrackP_eq] at h ⊢
    cases hf : videoFront o s b id d k with
    | err m => rw [hf] at h; exact Or.inl h
    | panic => rw [hf] at h; exact Or.inl h
    | ok x =>
      obtain ⟨t, s1⟩ := x
      rw [hf] at h
      obtain ⟨m, hk⟩ := videoFront_loose (f := f) ho hl hf
      have hc1 : s1.completed = true ∧ s1.autoFree = s.autoFree := ⟨FMicros.completed m hc, FMicros.autoFree m⟩
      cases t with
      | none => exact Or.inl h
      | some u =>
        dsimp only [Outcome.ofGo] at h ⊢
        rw [get_bind] at h ⊢
        rw [if_neg (by rw [hp]; simp)] at h
        rw [if_neg (by simp [Panicky.none])]
        obtain ⟨x, h1, _, h2⟩ := processP_both (s := s1.call [.accepted (o.preprocess (videoPkt s1 b id d k dts pts u))])
          ⟨(hl.micros m).index, (hl.micros m).keys, (hl.micros m).known⟩ hc1.1 (p := o.preprocess (videoPkt s1 b id d k dts pts u))
          (by unfold Known; rw [ho.index, ho.buffer]; exact hk u rfl) h
        refine Or.inr ⟨x, h1, h2.trans ?_⟩
        rw [show (s1.call [.accepted (o.preprocess (videoPkt s1 b id d k dts pts u))]).autoFree = s.autoFree from hc1.2]

theorem recovering_micros (f : Panicky) {l : List (Oracle × DemuxOp)} : ∀ {s : Demuxer}, Loose s → (∀ x ∈ l, x.1.Valid) →
    FMicros f s (runRecovering f s l) := by
  induction l with
  | nil => intro s _ _; exact .refl
  | cons x l ih =>
    obtain ⟨o, e⟩ := x
    intro s h hv
    unfold runRecovering
    obtain ⟨s', m, hx⟩ := runP_cases f (hv (o, e) (by simp)) h e
    have hst : (e.runP f o s).state = s' := by rcases hx with hx | ⟨hx, _⟩ <;> rw [hx] <;> rfl
    rw [hst]
    exact m.trans (ih (h.micros m) fun y hy => hv y (by simp [hy]))

end Demuxer
end Avf
