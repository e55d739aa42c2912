import Verif.Lemmas.DemuxerQueue
import Verif.Spec.DemuxerPipe
/-! # Lemmas: the calls of a demuxer on its pipeline -/
namespace Avf
open Go
namespace Demuxer

/-- Every delivery is followed by the release of a block and of the packet, and nothing else is released from a head. -/
def Paired : List Call → Prop
  | [] => True
  | .packet p :: .discardHead b :: .free p' :: rest => b = p.bufferIndex ∧ p' = p ∧ Paired rest
  | .packet _ :: _ => False
  | .discardHead _ :: _ => False
  | .free _ :: _ => False
  | .newTrack _ :: rest | .trackComplete :: rest | .trackNotFound :: rest | .discardBack _ :: rest
  | .accepted _ :: rest => Paired rest

theorem Paired.append {a b : List Call} (ha : Paired a) (hb : Paired b) : Paired (a ++ b) := by
  induction a using Paired.induct with
  | case1 => exact hb
  | case2 p b' p' rest ih => exact ⟨ha.1, ha.2.1, ih ha.2.2⟩
  | case3 p rest h => unfold Paired at ha; split at ha <;> simp_all
  | case4 => exact ha.elim
  | case5 => exact ha.elim
  | case6 _ _ ih => exact ih ha
  | case7 _ ih => exact ih ha
  | case8 _ ih => exact ih ha
  | case9 _ _ ih => exact ih ha
  | case10 _ _ ih => exact ih ha

theorem Paired.tail {a b : List Call} (ha : Paired a) (h : Paired (a ++ b)) : Paired b := by
  induction a using Paired.induct with
  | case1 => exact h
  | case2 p b' p' rest ih => exact ih ha.2.2 h.2.2
  | case3 p rest h => unfold Paired at ha; split at ha <;> simp_all
  | case4 => exact ha.elim
  | case5 => exact ha.elim
  | case6 _ _ ih => exact ih ha h
  | case7 _ ih => exact ih ha h
  | case8 _ ih => exact ih ha h
  | case9 _ _ ih => exact ih ha h
  | case10 _ _ ih => exact ih ha h

theorem Paired.fwd {s : Demuxer} (h : s.autoFree = true) (p : AVPacket) : Paired (fwdCalls s p) := by
  unfold fwdCalls; rw [if_pos h]; exact ⟨rfl, rfl, trivial⟩

theorem Paired.fwds {s : Demuxer} (h : s.autoFree = true) (ps : List AVPacket) : Paired (ps.flatMap (fwdCalls s)) := by
  induction ps with
  | nil => trivial
  | cons p ps ih => rw [List.flatMap_cons]; exact (Paired.fwd h p).append ih

theorem Paired.tracks (ts : List AVStream) : Paired (ts.map .newTrack) := by
  induction ts with
  | nil => trivial
  | cons t ts ih => exact ih

/-- With `AutoFree` the calls are paired. -/
def Frees (s : Demuxer) : Prop := s.autoFree = true ∧ Paired s.calls

theorem Frees.micro {s s' : Demuxer} (h : Frees s) (m : Micro s s') : Frees s' := by
  obtain ⟨ha, hp⟩ := h
  cases m with
  | quiet os pd => exact ⟨ha, hp⟩
  | register t b hc ht => exact ⟨ha, hp⟩
  | reject b => exact ⟨ha, hp.append (b := [.discardBack b]) trivial⟩
  | probing p hc hk => exact ⟨ha, hp.append (b := [.accepted p]) trivial⟩
  | live p hc hk =>
    by_cases hx : ∃ x, s.packets[slot s.packets p]? = some [x]
    · obtain ⟨x, hx⟩ := hx
      refine ⟨by unfold Demuxer.live; rw [hx]; exact ha, ?_⟩
      rw [live_calls hx]
      refine hp.append (Paired.append (a := [.accepted p]) trivial (Paired.fwd ha _))
    · refine ⟨by unfold Demuxer.live; split <;> exact ha, ?_⟩
      rw [live_calls' (by simpa using hx)]
      exact hp.append (b := [.accepted p]) trivial
  | done ts rs hc ht hts hp' hs =>
    refine ⟨ha, ?_⟩
    rw [done_calls]
    exact hp.append ((Paired.tracks ts).append (Paired.append (a := [.trackComplete]) trivial (Paired.fwds ha rs)))
  | notFound hc ht => exact ⟨ha, hp.append (b := [.trackNotFound]) trivial⟩

theorem Frees.micros {s s' : Demuxer} (h : Frees s) (m : Micros s s') : Frees s' := by
  induction m with
  | refl => exact h
  | tail _ m ih => exact ih.micro m

theorem Paired.freed {cs : List Call} (h : Paired cs) :
    freed cs = delivered cs ∧ releases cs = (delivered cs).map AVPacket.bufferIndex := by
  induction cs using Paired.induct with
  | case1 => exact ⟨rfl, rfl⟩
  | case2 p b' p' rest ih =>
    obtain ⟨rfl, rfl, h⟩ := h
    obtain ⟨h1, h2⟩ := ih h
    exact ⟨congrArg (p' :: ·) h1, congrArg (p'.bufferIndex :: ·) h2⟩
  | case3 p rest h' => unfold Paired at h; split at h <;> simp_all
  | case4 => exact h.elim
  | case5 => exact h.elim
  | case6 _ _ ih => exact ih h
  | case7 _ ih => exact ih h
  | case8 _ ih => exact ih h
  | case9 _ _ ih => exact ih h
  | case10 _ _ ih => exact ih h

/-- Without `AutoFree` the calls have no releases. -/
def Manual (s : Demuxer) : Prop := s.autoFree = false ∧ ∀ c ∈ s.calls, (∀ b, c ≠ .discardHead b) ∧ ∀ p, c ≠ .free p

theorem Manual.micro {s s' : Demuxer} (h : Manual s) (m : Micro s s') : Manual s' := by
  obtain ⟨ha, hp⟩ := h
  have add : ∀ {x y : List Call}, (∀ c ∈ x, (∀ b, c ≠ .discardHead b) ∧ ∀ p, c ≠ .free p) →
      (∀ c ∈ y, (∀ b, c ≠ .discardHead b) ∧ ∀ p, c ≠ .free p) → ∀ c ∈ x ++ y, (∀ b, c ≠ .discardHead b) ∧ ∀ p, c ≠ .free p :=
    fun hx hy c hc => (List.mem_append.1 hc).elim (hx c) (hy c)
  have hfwd : ∀ p, fwdCalls s p = [.packet p] := by intro p; unfold fwdCalls; rw [ha]; rfl
  cases m with
  | quiet os pd => exact ⟨ha, hp⟩
  | register t b hc ht => exact ⟨ha, hp⟩
  | reject b => exact ⟨ha, add hp (by simp)⟩
  | probing p hc hk => exact ⟨ha, add hp (by simp)⟩
  | live p hc hk =>
    by_cases hx : ∃ x, s.packets[slot s.packets p]? = some [x]
    · obtain ⟨x, hx⟩ := hx
      refine ⟨by unfold Demuxer.live; rw [hx]; exact ha, ?_⟩
      rw [live_calls hx, hfwd]
      exact add hp (by simp)
    · refine ⟨by unfold Demuxer.live; split <;> exact ha, ?_⟩
      rw [live_calls' (by simpa using hx)]
      exact add hp (by simp)
  | done ts rs hc ht hts hp' hs =>
    refine ⟨ha, ?_⟩
    rw [done_calls]
    refine add hp (add ?_ (add (by simp) ?_))
    · intro c hc; obtain ⟨t, _, rfl⟩ := List.mem_map.1 hc; simp
    · intro c hc
      obtain ⟨p, _, hc⟩ := List.mem_flatMap.1 hc
      rw [hfwd, List.mem_singleton] at hc
      subst hc; simp
  | notFound hc ht => exact ⟨ha, add hp (by simp)⟩

theorem ofBuffer_append (b : Int) (x y : List AVPacket) : ofBuffer b (x ++ y) = ofBuffer b x ++ ofBuffer b y := List.filter_append ..

theorem Plain.tail {c : Call} {cs : List Call} (h : Plain (c :: cs)) : Plain cs := fun x hx => h x (List.mem_cons_of_mem _ hx)

/-- Releasing blocks: `T b` are all blocks ever put in, `D b` are the packets delivered before. -/
theorem playAll_plain {strict : Bool} {cs : List Call} (hp : Plain cs) (hq : Paired cs) {T : Pipe} {D : Int → List AVPacket}
    (hlen : ∀ b, (D b ++ ofBuffer b (delivered cs)).length ≤ (T b).length)
    (hstr : strict = true → ∀ b, (D b ++ ofBuffer b (delivered cs)).map AVPacket.data <+: T b) :
    Pipe.playAll strict (fun b => (T b).drop (D b).length) cs =
      ok (fun b => (T b).drop (D b ++ ofBuffer b (delivered cs)).length) := by
  induction cs using Paired.induct generalizing D with
  | case1 => simp [Pipe.playAll, delivered, ofBuffer]
  | case2 p b' p' rest ih =>
    obtain ⟨rfl, rfl, hq⟩ := hq
    have hd : ∀ b, D b ++ ofBuffer b (delivered (.packet p' :: .discardHead p'.bufferIndex :: .free p' :: rest)) =
        (D b ++ ofBuffer b [p']) ++ ofBuffer b (delivered rest) := by
      intro b
      rw [List.append_assoc, ← ofBuffer_append]; rfl
    have hown : ofBuffer p'.bufferIndex [p'] = [p'] := by simp [ofBuffer]
    have hl := hlen p'.bufferIndex
    rw [hd, hown] at hl
    simp only [List.length_append, List.length_cons, List.length_nil] at hl
    obtain ⟨x, r, hx⟩ : ∃ x r, (T p'.bufferIndex).drop (D p'.bufferIndex).length = x :: r :=
      List.exists_cons_of_length_pos (by rw [List.length_drop]; omega)
    have hne : ¬ (strict = true ∧ ((fun b => (T b).drop (D b).length) p'.bufferIndex).head? ≠ some p'.data) := by
      rintro ⟨h1, h2⟩
      apply h2
      obtain ⟨r', h3⟩ := hstr h1 p'.bufferIndex
      rw [hd, hown] at h3
      dsimp only
      rw [← h3]
      simp
    have key : Pipe.playAll strict (fun b => (T b).drop (D b).length) (.packet p' :: .discardHead p'.bufferIndex :: .free p' :: rest) =
        Pipe.playAll strict (fun b => (T b).drop (D b ++ ofBuffer b [p']).length) rest := by
      simp only [Pipe.playAll, Pipe.play]
      rw [if_neg hne, ok_bind, if_neg (by dsimp only; rw [hx]; simp), ok_bind, ok_bind]
      congr 1
      funext b
      unfold Pipe.update
      by_cases hb : b = p'.bufferIndex
      · subst hb
        rw [if_pos rfl, hown, List.length_append, List.tail_drop]; rfl
      · rw [if_neg hb, show ofBuffer b [p'] = [] by simp [ofBuffer, Ne.symm hb]]
        simp
    rw [key]
    simp only [hd] at hlen hstr ⊢
    exact ih hp.tail.tail.tail hq hlen hstr
  | case3 p rest h => unfold Paired at hq; split at hq <;> simp_all
  | case4 => exact hq.elim
  | case5 => exact hq.elim
  | case6 t rest ih => exact ih hp.tail hq hlen hstr
  | case7 rest ih => exact ih hp.tail hq hlen hstr
  | case8 rest ih => exact ih hp.tail hq hlen hstr
  | case9 b rest ih => exact absurd rfl ((hp _ (List.mem_cons_self ..)).2 b)
  | case10 q rest ih => exact absurd rfl ((hp _ (List.mem_cons_self ..)).1 q)

/-- What is in the pipeline: the blocks of the packets taken, without as many as were delivered. -/
def heldBlocks (s : Demuxer) : Pipe := fun b =>
  ((ofBuffer b (taken s.calls)).map AVPacket.data).drop (ofBuffer b (delivered s.calls)).length

theorem put_discard (strict : Bool) (P : Pipe) (b : Int) (d : Bytes) :
    (P.put (some (b, d))).playAll strict [.discardBack b] = ok P := by
  have h : P.put (some (b, d)) b = P b ++ [d] := by simp [Pipe.put, Pipe.update]
  show ((P.put (some (b, d))).play strict (.discardBack b) >>= _) = _
  have h1 : (P.put (some (b, d))).play strict (.discardBack b) = ok ((P.put (some (b, d))).update b List.dropLast) :=
    if_neg (by rw [h]; simp)
  rw [h1, ok_bind]
  show ok _ = _
  congr 1
  funext c
  unfold Pipe.update Pipe.put Pipe.update
  split <;> simp_all

/-- One operation and the pipeline. -/
theorem step_piped {strict : Bool} {o : Oracle} (ho : o.Valid) (hd : ∀ p, (o.preprocess p).data = p.data) {s s' : Demuxer}
    (hi : Inv s) (hfr : Frees s) {e : DemuxOp} (hr : e.run o s = ok s')
    (hlen0 : ∀ b, (ofBuffer b (delivered s.calls)).length ≤ (ofBuffer b (taken s.calls)).length)
    (hlen : ∀ b, (ofBuffer b (delivered s'.calls)).length ≤ (ofBuffer b (taken s'.calls)).length)
    (hstr : strict = true → ∀ b, (ofBuffer b (delivered s'.calls)).map AVPacket.data <+: (ofBuffer b (taken s'.calls)).map AVPacket.data) :
    ((heldBlocks s).put e.block).playAll strict (s'.calls.drop s.calls.length) = ok (heldBlocks s') := by
  have hfr' := hfr.micros (run_micros ho hi hr)
  have hsame : ∀ {cs : List Call}, s'.calls = s.calls ++ cs → Plain cs → e.block = none →
      ((heldBlocks s).put e.block).playAll strict (s'.calls.drop s.calls.length) = ok (heldBlocks s') := by
    intro cs h hp hk
    have ht : taken s'.calls = taken s.calls := by rw [h, taken_append, hp.taken, List.append_nil]
    have hq : Paired cs := hfr.2.tail (by rw [← h]; exact hfr'.2)
    rw [hk, h, List.drop_left]
    have hD : ∀ b, ofBuffer b (delivered s'.calls) = ofBuffer b (delivered s.calls) ++ ofBuffer b (delivered cs) := by
      intro b; rw [h, delivered_append, ofBuffer_append]
    have := playAll_plain (strict := strict) hp hq (T := fun b => (ofBuffer b (taken s'.calls)).map AVPacket.data)
      (D := fun b => ofBuffer b (delivered s.calls)) (by intro b; rw [← hD, List.length_map]; exact hlen b)
      (by intro hs b; rw [← hD]; exact hstr hs b)
    simp only [← hD, ht] at this
    unfold heldBlocks
    rw [ht]
    exact this
  have hdrop : ∀ {b d}, s'.calls = s.calls ++ [.discardBack b] → e.block = some (b, d) →
      ((heldBlocks s).put e.block).playAll strict (s'.calls.drop s.calls.length) = ok (heldBlocks s') := by
    intro b d h hk
    rw [hk, h, List.drop_left, put_discard]
    unfold heldBlocks
    have hdl : delivered (s.calls ++ [.discardBack b]) = delivered s.calls := by
      rw [delivered_append]; show _ ++ [] = _; simp
    rw [h, taken_reject, hdl]
  cases run_shape ho hi hr with
  | plain cs h hp hb hk => exact hsame h hp hk
  | track b h hn hb =>
    rcases h with ⟨h, hk⟩ | ⟨d, h, hk⟩
    · exact hsame (cs := []) (by rw [h, List.append_nil]) (by simp [Plain]) hk
    · exact hdrop h hk
  | reject b d hk h hb hno => exact hdrop h hk
  | accept p cs d hk hd' h hp hb =>
    have ht : taken s'.calls = taken s.calls ++ [p] := by
      rw [h, show s.calls ++ Call.accepted p :: cs = s.calls ++ [.accepted p] ++ cs by simp, taken_append, hp.taken, List.append_nil, taken_accept]
    have hdl : delivered s'.calls = delivered s.calls ++ delivered cs := by
      rw [h, delivered_append]; rfl
    have hq : Paired cs := by
      have : Paired (.accepted p :: cs) := hfr.2.tail (by rw [← h]; exact hfr'.2)
      exact this
    rw [hk, h, List.drop_left]
    have hput : (heldBlocks s).put (some (p.bufferIndex, d)) = fun b =>
        ((ofBuffer b (taken s'.calls)).map AVPacket.data).drop (ofBuffer b (delivered s.calls)).length := by
      funext b
      rw [ht, ofBuffer_append, List.map_append]
      unfold Pipe.put Pipe.update heldBlocks
      dsimp only
      by_cases hb : b = p.bufferIndex
      · subst hb
        rw [if_pos rfl, List.drop_append_of_le_length (by rw [List.length_map]; exact hlen0 _), ← hd' hd]
        simp [ofBuffer]
      · rw [if_neg hb, show ofBuffer b [p] = [] by simp [ofBuffer, Ne.symm hb]]
        simp
    show Pipe.playAll strict ((heldBlocks s).put (some (p.bufferIndex, d))) cs = _
    rw [hput]
    have hD : ∀ b, ofBuffer b (delivered s'.calls) = ofBuffer b (delivered s.calls) ++ ofBuffer b (delivered cs) := by
      intro b; rw [hdl, ofBuffer_append]
    have := playAll_plain (strict := strict) hp hq (T := fun b => (ofBuffer b (taken s'.calls)).map AVPacket.data)
      (D := fun b => ofBuffer b (delivered s.calls)) (by intro b; rw [← hD, List.length_map]; exact hlen b)
      (by intro hs b; rw [← hD]; exact hstr hs b)
    simp only [← hD] at this
    exact this

/-- Fewer packets of a buffer were delivered than taken. -/
theorem Conserved.length {s : Demuxer} (h : Conserved s) (b : Int) :
    (ofBuffer b (delivered s.calls)).length + (ofBuffer b s.packets.flatten).length = (ofBuffer b (taken s.calls)).length := by
  have h1 := (h.filter fun p => p.bufferIndex = b).length_eq
  have h2 : ∀ l : List AVPacket, ((l.map bare).filter fun p => p.bufferIndex = b).length = (ofBuffer b l).length := by
    intro l
    rw [List.filter_map, List.length_map]; rfl
  rw [h2, h2, ofBuffer_append, List.length_append] at h1
  exact h1

/-- A whole history and the pipeline. -/
theorem runPiped_eq {strict : Bool} {l : List (Oracle × DemuxOp)} {s s' : Demuxer} (hv : ∀ x ∈ l, x.1.Valid) (hd : KeepsData l)
    (hi : Inv s) (hfr : Frees s) (hr : runDemux s l = ok s')
    (hall : ∀ l1 l2 s1, l = l1 ++ l2 → runDemux s l1 = ok s1 →
      (∀ b, (ofBuffer b (delivered s1.calls)).length ≤ (ofBuffer b (taken s1.calls)).length) ∧
      (strict = true → ∀ b, (ofBuffer b (delivered s1.calls)).map AVPacket.data <+: (ofBuffer b (taken s1.calls)).map AVPacket.data)) :
    runPiped strict s (heldBlocks s) l = ok (s', heldBlocks s') := by
  induction l generalizing s with
  | nil => cases hr; rfl
  | cons x l ih =>
    obtain ⟨o, e⟩ := x
    obtain ⟨s1, h1, hr⟩ := bind_eq_ok.1 hr
    have ho := hv _ (List.mem_cons_self ..)
    have hm := run_micros ho hi h1
    have hs0 := hall [] _ s rfl rfl
    have hs1 := hall [(o, e)] l s1 rfl (by show (e.run o s >>= _) = _; rw [h1]; rfl)
    show (e.run o s >>= _) = _
    rw [h1, ok_bind, step_piped ho (hd _ (List.mem_cons_self ..)) hi hfr h1 hs0.1 hs1.1 hs1.2, ok_bind]
    refine ih (fun x hx => hv x (List.mem_cons_of_mem _ hx)) (fun x hx => hd x (List.mem_cons_of_mem _ hx)) (hi.micros hm) (hfr.micros hm) hr ?_
    intro l1 l2 s2 hl h2
    exact hall ((o, e) :: l1) l2 s2 (by rw [hl]; rfl) (by show (e.run o s >>= _) = _; rw [h1]; exact h2)

end Demuxer
end Avf
