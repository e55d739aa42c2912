import Verif.Lemmas.DemuxerObjectsSim
import Verif.Lemmas.DemuxerRun
/-! # Helper lemmas: end of probing with packet objects -/
namespace Avf
open Go PacketPool

variable {K : Kept}

theorem LRel_size {α : Type} {q : LList α} {l : List α} (h : LList.LRel q l) : q.size = l.length := by
  obtain ⟨ns, h⟩ := h
  exact h.size

/-! ## Sorting -/

/-- What Go guarantees about `sort.Slice`. -/
def SortOk (f : List AVPacket → List AVPacket) : Prop := (∀ l, (f l).Perm l) ∧ ∀ l, (f l).Pairwise fun a b => ¬ b.dts < a.dts

open scoped Classical in
theorem sort_with {L M : List AVPacket} (hp : M.Perm L) (hs : M.Pairwise fun a b => ¬ b.dts < a.dts) : ∃ f, SortOk f ∧ f L = M := by
  refine ⟨fun l => if l = L then M else exOracle.sort l, ⟨fun l => ?_, fun l => ?_⟩, by simp⟩
  · by_cases h : l = L
    · simp only [h, if_true]; exact hp
    · simp only [h, if_false]; exact exOracle_valid.sortPerm l
  · by_cases h : l = L
    · simp only [h, if_true]; exact hs
    · simp only [h, if_false]; exact exOracle_valid.sorted l

theorem perm_values {objs : List AVPacket} {l l' : List Nat} {xs : List AVPacket} (h : l.map (objs[·]?) = xs.map some) (hp : l'.Perm l) :
    ∃ xs' : List AVPacket, xs'.Perm xs ∧ l'.map (objs[·]?) = xs'.map some := by
  have h1 : (l'.map (objs[·]?)).Perm (xs.map some) := h ▸ hp.map _
  refine ⟨(l'.map (objs[·]?)).filterMap id, ?_, ?_⟩
  · have := h1.filterMap id
    have e : (xs.map some).filterMap id = xs := by
      rw [List.filterMap_map]; exact List.filterMap_some
    rwa [e] at this
  · have hall : ∀ y ∈ l'.map (objs[·]?), ∃ x, y = some x := by
      intro y hy
      obtain ⟨x, _, rfl⟩ := List.mem_map.1 (h1.mem_iff.1 hy)
      exact ⟨x, rfl⟩
    generalize l'.map (objs[·]?) = ys at hall
    induction ys with
    | nil => rfl
    | cons y ys ih =>
      obtain ⟨x, rfl⟩ := hall y (List.mem_cons_self ..)
      show some x :: ys = some x :: List.map some (List.filterMap id ys)
      rw [← ih fun z hz => hall z (List.mem_cons_of_mem _ hz)]

theorem sorted_values {objs : List AVPacket} {l : List Nat} {xs : List AVPacket} (h : l.map (objs[·]?) = xs.map some)
    (hs : l.Pairwise fun a b => ∀ x y : AVPacket, objs[a]? = some x → objs[b]? = some y → ¬ y.dts < x.dts) :
    xs.Pairwise fun a b => ¬ b.dts < a.dts := by
  have h1 : (l.map (objs[·]?)).Pairwise fun a b => ∀ x y : AVPacket, a = some x → b = some y → ¬ y.dts < x.dts := by
    rw [List.pairwise_map]; exact hs
  rw [h, List.pairwise_map] at h1
  exact h1.imp fun h => h _ _ rfl rfl

/-! ## Taking packets out of the queues -/

theorem takeFront_spec {xs : List Nat} : ∀ (n : Nat) {q : LList Nat}, LList.LRel q xs → n ≤ xs.length →
    ∃ q', ObjDemuxer.takeFront n q = ok (xs.take n, q') ∧ LList.LRel q' (xs.drop n) := by
  intro n
  induction n generalizing xs with
  | zero => intro q h _; exact ⟨q, rfl, h⟩
  | succ n ih =>
    intro q h hn
    cases xs with
    | nil => simp at hn
    | cons x xs =>
      obtain ⟨ns, h⟩ := h
      obtain ⟨q1, e1, r1⟩ := h.remove 0 (by simp)
      obtain ⟨q2, e2, r2⟩ := ih (xs := xs) (q := q1) ⟨_, r1⟩ (by simpa using hn)
      refine ⟨q2, ?_, r2⟩
      have e1' : q.remove 0 = ok (x, q1) := e1
      simp only [ObjDemuxer.takeFront, e1', e2, ok_bind, pure_def, List.take_succ_cons]

/-- The rows after all but the last packet have been taken. -/
def Row.after (t : Row) (q : LList Nat) : Row := ⟨q, t.l.drop (t.l.length - 1), t.vs.drop (t.vs.length - 1)⟩

theorem Row.Ok.len {objs : List AVPacket} {t : Row} (h : t.Ok objs) : t.l.length = t.vs.length := by
  have := congrArg List.length h.2
  simpa using this

theorem drainAll_spec {objs : List AVPacket} (ts : List Row) (h : ∀ t ∈ ts, t.Ok objs) :
    ∃ ts' : List Row, ObjDemuxer.drainAll (ts.map Row.q) = ok (ts.flatMap fun t => t.l.take (t.l.length - 1), ts'.map Row.q) ∧
      (∀ t ∈ ts', t.Ok objs) ∧ ts'.map Row.vs = (ts.map Row.vs).map (fun q => (Demuxer.drain q).2) ∧
      (ts.flatMap fun t => t.l.take (t.l.length - 1)).map (objs[·]?) =
        (((ts.map Row.vs).flatMap fun q => (Demuxer.drain q).1)).map some ∧
      (ts.flatMap Row.l).Perm (ts'.flatMap Row.l ++ ts.flatMap fun t => t.l.take (t.l.length - 1)) := by
  induction ts with
  | nil => exact ⟨[], rfl, by simp, rfl, rfl, by simp⟩
  | cons t ts ih =>
    obtain ⟨ts', e, r1, r2, r3, r4⟩ := ih fun x hx => h x (List.mem_cons_of_mem _ hx)
    have ht := h t (List.mem_cons_self ..)
    obtain ⟨q', e1, e2⟩ := takeFront_spec (t.l.length - 1) ht.1 (by omega)
    have hd : ∀ q : List AVPacket, Demuxer.drain q = (q.take (q.length - 1), q.drop (q.length - 1)) := by
      intro q
      unfold Demuxer.drain
      dsimp only
      by_cases hq : (q.length : Int) - 2 < 0
      · rw [if_pos hq, show q.length - 1 = 0 by omega]; simp
      · rw [if_neg hq, show ((q.length : Int) - 2 + 1).toNat = q.length - 1 by omega]
    refine ⟨t.after q' :: ts', ?_, ?_, ?_, ?_, ?_⟩
    · simp only [List.map_cons, ObjDemuxer.drainAll, LRel_size ht.1, e1, e, ok_bind, pure_def, List.flatMap_cons]
      rfl
    · intro x hx
      rcases List.mem_cons.1 hx with rfl | hx
      · refine ⟨e2, ?_⟩
        show (t.l.drop _).map _ = (t.vs.drop _).map _
        rw [List.map_drop, List.map_drop, ht.2, ht.len]
      · exact r1 x hx
    · simp only [List.map_cons, r2, hd]; rfl
    · simp only [List.flatMap_cons, List.map_append, List.map_cons, r3, hd, List.map_take, ht.2, ht.len]
    · simp only [List.flatMap_cons]
      have : t.l.Perm ((t.after q').l ++ t.l.take (t.l.length - 1)) := by
        show t.l.Perm (t.l.drop _ ++ _)
        conv_lhs => rw [← List.take_append_drop (t.l.length - 1) t.l]
        exact List.perm_append_comm
      refine (this.append r4).trans ?_
      simp only [List.append_assoc]
      refine List.Perm.append_left _ ?_
      rw [← List.append_assoc, ← List.append_assoc]
      exact List.Perm.append_right _ List.perm_append_comm

/-! ## Preparing tracks -/

theorem heads_spec {objs : List AVPacket} (ts : List Row) (h : ∀ t ∈ ts, t.Ok objs) :
    ObjDemuxer.heads objs (ts.map Row.q) = ok ((ts.map Row.vs).map (List.take 1)) := by
  induction ts with
  | nil => rfl
  | cons t ts ih =>
    have ih := ih fun x hx => h x (List.mem_cons_of_mem _ hx)
    have ht := h t (List.mem_cons_self ..)
    obtain ⟨q, l, vs⟩ := t
    obtain ⟨h1, h2⟩ := ht
    have h1 : LList.LRel q l := h1
    have h2 : l.map (objs[·]?) = vs.map some := h2
    unfold ObjDemuxer.heads at ih ⊢
    simp only [List.map_cons, List.mapM_cons, ih, LRel_size h1]
    cases l with
    | nil =>
      have : vs = [] := by simpa using h2.symm
      subst this
      rfl
    | cons p l =>
      cases vs with
      | nil => simp at h2
      | cons x vs =>
        simp only [List.map_cons, List.cons.injEq] at h2
        obtain ⟨ns, h1⟩ := h1
        have hg : q.get 0 = ok p := by have := h1.get 0; simpa using this
        rw [if_neg (by simp), hg]
        simp only [ok_bind, idx_eq_ok.2 h2.1, pure_def, List.take_succ_cons, List.take_zero]

theorem firstPacketOf_heads (u c : Int) (P : List (List AVPacket)) :
    Demuxer.firstPacketOf u c (P.map (List.take 1)) = Demuxer.firstPacketOf u c P := by
  induction P with
  | nil => rfl
  | cons q P ih =>
    cases q with
    | nil => simpa [Demuxer.firstPacketOf] using ih
    | cons p q => simp only [List.map_cons, List.take_succ_cons, List.take_zero, Demuxer.firstPacketOf, ih]

theorem retune_heads (u : Int) (P : List (List AVPacket)) : Demuxer.retune u (P.map (List.take 1)) = Demuxer.retune u P := by
  funext t
  simp only [Demuxer.retune, Demuxer.g726Tune, Demuxer.pcmTune, firstPacketOf_heads]
  rfl

theorem prepare_sim {d : ObjDemuxer} {ts : List Row} {todo : List Nat} {xs : List AVPacket} {s : Demuxer} (h : ObjSim K d ts todo xs s) (u : Int) :
    ∃ d' s', d.prepareTracks u = ok d' ∧ s.prepareTracks u = ok s' ∧ ObjSim K d' ts todo xs s' := by
  have e1 := heads_spec ts h.rows
  rw [← h.queues, ← h.packets] at e1
  have hb := h.base
  refine ⟨{ d with base := { d.base with tracks := ⟨d.base.tracks.tracks.map (Demuxer.retune u s.packets)⟩ } }, _, ?_,
    Demuxer.prepare_eq u s, ?_⟩
  · simp only [ObjDemuxer.prepareTracks, e1, ok_bind, Demuxer.prepare_eq, pure_def]
    rw [retune_heads]
  · have := h.rebase { d.base with tracks := ⟨d.base.tracks.tracks.map (Demuxer.retune u s.packets)⟩ }
    convert this using 1
    generalize s.packets = P at hb ⊢
    subst hb; rfl

theorem tells_sim {o : ObjOracle} (ho : o.Valid) (l : List AVStream) : ∀ {d : ObjDemuxer} {ts : List Row} {todo : List Nat}
    {xs : List AVPacket} {s : Demuxer}, ObjSim K d ts todo xs s →
    ObjSim K (l.foldl (fun d t => d.tell o (.newTrack t) none) d) ts todo xs (s.call (l.map .newTrack)) := by
  induction l with
  | nil => intro d ts todo xs s h; simpa [Demuxer.call] using h
  | cons t l ih =>
    intro d ts todo xs s h
    have := ih (h.tell ho (.newTrack t))
    simpa [Demuxer.call] using this

/-! ## The end of probing -/

theorem complete_sim {o : ObjOracle} (ho : o.Valid) {d : ObjDemuxer} {ts : List Row} {s : Demuxer} (h : ObjSim K d ts [] [] s) :
    ∃ f, SortOk f ∧ ∀ o' : Oracle, o'.undef = o.undef → o'.sort = f → Agrees K (d.onProbeComplete o) (s.onProbeComplete o') := by
  obtain ⟨f1, f2, f3, f4, f5, f6, f7, f8⟩ := h.fields
  by_cases hc : d.base.completed
  · refine ⟨exOracle.sort, ⟨exOracle_valid.sortPerm, exOracle_valid.sorted⟩, fun o' _ _ => ?_⟩
    have e1 : d.onProbeComplete o = ok d := by unfold ObjDemuxer.onProbeComplete; rw [if_pos hc]
    have e2 : s.onProbeComplete o' = ok s := by unfold Demuxer.onProbeComplete; rw [if_pos (by rw [f5]; exact hc)]
    rw [e1, e2]
    exact ⟨ts, h⟩
  · have hc' : ¬ s.completed = true := by rw [f5]; exact hc
    have h1 : ObjSim K { d with base := { d.base with completed := true } } ts [] [] { s with completed := true } := by
      have := h.rebase { d.base with completed := true }
      convert this using 1
      have hb := h.base
      generalize s.packets = P at hb ⊢
      subst hb; rfl
    by_cases ht : d.base.tracks.size = 0
    · refine ⟨exOracle.sort, ⟨exOracle_valid.sortPerm, exOracle_valid.sorted⟩, fun o' _ _ => ?_⟩
      unfold ObjDemuxer.onProbeComplete Demuxer.onProbeComplete
      rw [if_neg hc, if_neg hc']
      dsimp only
      rw [if_pos ht, if_pos (by rw [f2]; exact ht)]
      exact ⟨ts, h1.tell ho _⟩
    · obtain ⟨d2, s2, e2, e2', h2⟩ := prepare_sim h1 o.undef
      have h3 := (tells_sim ho d2.base.tracks.tracks h2).tell ho .trackComplete
      generalize hd3 : ObjDemuxer.tell o (d2.base.tracks.tracks.foldl (fun d t => d.tell o (.newTrack t) none) d2) .trackComplete none = d3 at h3
      generalize hs3 : (s2.call (d2.base.tracks.tracks.map .newTrack)).call [.trackComplete] = s3 at h3
      obtain ⟨ts', e4, r1, r2, r3, r4⟩ := drainAll_spec ts h3.rows
      rw [← h3.queues] at e4
      rw [← h3.packets] at r2 r3
      have hperm := ho.sortPerm d3.shared.pool.objs (ts.flatMap fun t => t.l.take (t.l.length - 1))
      obtain ⟨xs', p1, p2⟩ := perm_values r3 hperm
      obtain ⟨f, hf, hfe⟩ := sort_with p1 (sorted_values p2 (ho.sorted _ _))
      refine ⟨f, hf, fun o' hu hs => ?_⟩
      have h4 : ObjSim K { d3 with queues := ts'.map Row.q } ts' (o.sortObjs d3.shared.pool.objs (ts.flatMap fun t => t.l.take (t.l.length - 1))) xs'
          { s3 with packets := s3.packets.map fun q => (Demuxer.drain q).2 } := by
        refine ⟨?_, rfl, r2.symm, r1, p2, h3.frame, h3.inv.perm ?_⟩
        · have hb := h3.base
          dsimp only
          generalize s3.packets = P at hb ⊢
          subst hb; rfl
        · refine List.Perm.append_right _ (List.Perm.append_right _ ?_)
          rw [List.append_nil]
          exact r4.trans (List.Perm.append_left _ hperm.symm)
      have g1 : d.onProbeComplete o = ({ d3 with queues := ts'.map Row.q } : ObjDemuxer).forwardAll o
          (o.sortObjs d3.shared.pool.objs (ts.flatMap fun t => t.l.take (t.l.length - 1))) := by
        unfold ObjDemuxer.onProbeComplete
        rw [if_neg hc]
        dsimp only
        rw [if_neg ht, e2]
        simp only [ok_bind, hd3, e4]
      have g2 : s.onProbeComplete o' = ({ s3 with packets := s3.packets.map fun q => (Demuxer.drain q).2 } : Demuxer).forwardAll xs' := by
        unfold Demuxer.onProbeComplete
        rw [if_neg hc']
        dsimp only
        rw [if_neg (by rw [f2]; exact ht), hu, e2']
        have ht2 : s2.tracks = d2.base.tracks := h2.fields.2.1
        simp only [ok_bind, ht2, hs3, hs, hfe]
      rw [g1, g2]
      exact forwardAll_sim ho _ h4

end Avf
