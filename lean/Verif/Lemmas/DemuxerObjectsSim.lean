import Verif.Lemmas.DemuxerObjects
/-! # Helper lemmas: demuxers with packet objects behave like demuxers with packet values (simulation) -/
namespace Avf
open Go PacketPool

/-- A queue: the linked list, the pointers in it, the packets they point to. -/
structure Row where
  q : LList Nat
  l : List Nat
  vs : List AVPacket

/-- The three agree. -/
def Row.Ok (objs : List AVPacket) (t : Row) : Prop := LList.LRel t.q t.l ∧ t.l.map (objs[·]?) = t.vs.map some

theorem Row.Ok.keep {objs objs' : List AVPacket} {t : Row} (h : t.Ok objs) (hk : ∀ p ∈ t.l, objs'[p]? = objs[p]?) : t.Ok objs' :=
  ⟨h.1, by rw [← h.2]; exact List.map_congr_left hk⟩

/-- Packets that belong to others who do nothing at the moment (other demuxers), and their contents. -/
structure Kept where
  l : List Nat
  val : Nat → Option AVPacket

/-- `d` with packet objects is `s` with packet values; the objects `todo` are the demuxer's too and have the values `xs`. -/
structure ObjSim (K : Kept) (d : ObjDemuxer) (ts : List Row) (todo : List Nat) (xs : List AVPacket) (s : Demuxer) : Prop where
  base : s = { d.base with packets := s.packets }
  queues : d.queues = ts.map Row.q
  packets : s.packets = ts.map Row.vs
  rows : ∀ t ∈ ts, t.Ok d.shared.pool.objs
  rest : todo.map (d.shared.pool.objs[·]?) = xs.map some
  frame : ∀ q ∈ K.l, d.shared.pool.objs[q]? = K.val q
  inv : PoolInv d.shared.pool ((ts.flatMap Row.l ++ todo ++ K.l) ++ d.shared.theirs)

/-- Results agree. -/
def Agrees (K : Kept) : Go ObjDemuxer → Go Demuxer → Prop
  | .ok d, .ok s => ∃ ts, ObjSim K d ts [] [] s
  | .panic, .panic => True
  | .err _, .err _ => True
  | _, _ => False

variable {K : Kept}

theorem map_keep {objs objs' : List AVPacket} {l : List Nat} {xs : List AVPacket} (h : l.map (objs[·]?) = xs.map some)
    (hk : ∀ p ∈ l, objs'[p]? = objs[p]?) : l.map (objs'[·]?) = xs.map some := by
  rw [← h]; exact List.map_congr_left hk

theorem ObjSim.fields {d : ObjDemuxer} {ts : List Row} {todo : List Nat} {xs : List AVPacket} {s : Demuxer} (h : ObjSim K d ts todo xs s) :
    s.name = d.base.name ∧ s.tracks = d.base.tracks ∧ s.orderedStreams = d.base.orderedStreams ∧ s.probeDuration = d.base.probeDuration ∧
    s.completed = d.base.completed ∧ s.autoFree = d.base.autoFree ∧ s.bufferOf = d.base.bufferOf ∧ s.calls = d.base.calls := by
  have h := h.base
  generalize s.packets = P at h
  subst h
  exact ⟨rfl, rfl, rfl, rfl, rfl, rfl, rfl, rfl⟩

/-- A change of the base that does not touch packets. -/
theorem ObjSim.rebase {d : ObjDemuxer} {ts : List Row} {todo : List Nat} {xs : List AVPacket} {s : Demuxer} (h : ObjSim K d ts todo xs s)
    (b : Demuxer) : ObjSim K { d with base := b } ts todo xs { b with packets := s.packets } :=
  ⟨rfl, h.queues, h.packets, h.rows, h.rest, h.frame, h.inv⟩

theorem ObjSim.others {o : ObjOracle} (ho : o.Valid) {d : ObjDemuxer} {ts : List Row} {todo : List Nat} {xs : List AVPacket} {s : Demuxer}
    (h : ObjSim K d ts todo xs s) : ObjSim K (d.others o none) ts todo xs s := by
  obtain ⟨h1, h2, _⟩ := acts_keep (lent := none) (by simp) _ (ho.fair d.base.calls.length) d.shared h.inv
  have hk : ∀ q ∈ ts.flatMap Row.l ++ todo ++ K.l, (d.others o none).shared.pool.objs[q]? = d.shared.pool.objs[q]? :=
    fun q hq => h2 q hq (by simp)
  exact ⟨h.base, h.queues, h.packets,
    fun t ht => (h.rows t ht).keep fun p hp => hk p (List.mem_append_left _ (List.mem_append_left _ (List.mem_flatMap.2 ⟨t, ht, hp⟩))),
    map_keep h.rest fun p hp => hk p (List.mem_append_left _ (List.mem_append_right _ hp)),
    fun q hq => (hk q (List.mem_append_right _ hq)).trans (h.frame q hq), h1⟩

theorem ObjSim.tell {o : ObjOracle} (ho : o.Valid) {d : ObjDemuxer} {ts : List Row} {todo : List Nat} {xs : List AVPacket} {s : Demuxer}
    (h : ObjSim K d ts todo xs s) (c : Call) : ObjSim K (d.tell o c none) ts todo xs (s.call [c]) := by
  have e : s.call [c] = { d.base.call [c] with packets := s.packets } := by
    have := h.base
    generalize s.packets = P at this ⊢
    subst this; rfl
  rw [e]
  exact (h.rebase _).others ho

/-- A packet goes out. -/
theorem forward_sim {o : ObjOracle} (ho : o.Valid) {d : ObjDemuxer} {ts : List Row} {p : Nat} {todo : List Nat} {x : AVPacket}
    {xs : List AVPacket} {s : Demuxer} (h : ObjSim K d ts (p :: todo) (x :: xs) s) :
    (∃ d' s', d.forwardPacket o p = ok d' ∧ s.forwardPacket x = ok s' ∧ ObjSim K d' ts todo xs s') ∨
      (d.forwardPacket o p = panic ∧ s.forwardPacket x = panic) := by
  obtain ⟨f1, f2, f3, f4, f5, f6, f7, f8⟩ := h.fields
  have hx : d.shared.pool.objs[p]? = some x := by have := h.rest; simp only [List.map_cons, List.cons.injEq] at this; exact this.1
  have hxs : todo.map (d.shared.pool.objs[·]?) = xs.map some := by
    have := h.rest; simp only [List.map_cons, List.cons.injEq] at this; exact this.2
  have hi : idx d.shared.pool.objs p = ok x := idx_eq_ok.2 hx
  have perm1 : (ts.flatMap Row.l ++ p :: todo ++ K.l).Perm (p :: (ts.flatMap Row.l ++ todo ++ K.l)) :=
    List.perm_middle.append_right K.l
  by_cases ha : d.base.autoFree
  · have hinv : PoolInv d.shared.pool ((p :: (ts.flatMap Row.l ++ todo ++ K.l)) ++ d.shared.theirs) := h.inv.perm (perm1.append_right _)
    have hnp : p ∉ ts.flatMap Row.l ++ todo ++ K.l := by
      have := hinv.distinct
      rw [List.cons_append, List.nodup_cons] at this
      exact fun hm => this.1 (List.mem_append_left _ hm)
    obtain ⟨a1, a2, a3⟩ := acts_keep (lent := some p) (mine := p :: (ts.flatMap Row.l ++ todo ++ K.l)) (by rintro _ ⟨⟩; exact List.mem_cons_self ..)
      _ (ho.fair (d.base.call [.packet x]).calls.length) d.shared hinv
    obtain ⟨y, hy, hyi⟩ := a3 p x rfl hx
    generalize hd1 : d.tell o (.packet x) (some p) = d1
    have e1 : d1.shared = (o.acts (d.base.call [.packet x]).calls.length).foldl (Act.run (some p)) d.shared := by rw [← hd1]; rfl
    have e2 : d1.base = d.base.call [.packet x] := by rw [← hd1]; rfl
    have e3 : d1.queues = d.queues := by rw [← hd1]; rfl
    rw [← e1] at a1 a2 hy
    have hf : d.forwardPacket o p = (match d1.base.bufferOf.lookup y.index with
        | none => panic
        | some b => ok { d1 with base := d1.base.call [.discardHead b, .free x]
                                 shared := { d1.shared with pool := d1.shared.pool.freePacket p } }) := by
      simp only [ObjDemuxer.forwardPacket, hi, ok_bind, ha, if_true, hd1, idx_eq_ok.2 hy]
      rfl
    have hb : d1.base.bufferOf = s.bufferOf := by rw [e2, f7]; rfl
    have hv : s.forwardPacket x = (match s.bufferOf.lookup x.index with
        | none => panic
        | some b => ok ((s.call [.packet x]).call [.discardHead b, .free x])) := by
      simp only [Demuxer.forwardPacket]
      rw [if_pos (by show s.autoFree = true; rw [f6]; exact ha)]
      rfl
    rw [hf, hv, hb, hyi]
    cases hl : s.bufferOf.lookup x.index with
    | none => exact Or.inr ⟨rfl, rfl⟩
    | some b =>
      refine Or.inl ⟨_, _, rfl, rfl, ?_, e3.trans h.queues, h.packets, ?_, ?_, ?_, ?_⟩
      · have hb := h.base
        show (s.call [.packet x]).call [.discardHead b, .free x] =
          { d1.base.call [.discardHead b, .free x] with packets := s.packets }
        rw [e2]
        generalize s.packets = P at hb ⊢
        subst hb; rfl
      · intro t ht
        refine (h.rows t ht).keep fun q hq => ?_
        have hm : q ∈ ts.flatMap Row.l ++ todo ++ K.l := List.mem_append_left _ (List.mem_append_left _ (List.mem_flatMap.2 ⟨t, ht, hq⟩))
        have hne : p ≠ q := fun e => hnp (e ▸ hm)
        show (d1.shared.pool.freePacket p).objs[q]? = _
        rw [freePacket_other _ hne]
        exact a2 q (List.mem_cons_of_mem _ hm) (by rintro ⟨⟩; exact hne rfl)
      · refine map_keep hxs fun q hq => ?_
        have hm : q ∈ ts.flatMap Row.l ++ todo ++ K.l := List.mem_append_left _ (List.mem_append_right _ hq)
        have hne : p ≠ q := fun e => hnp (e ▸ hm)
        show (d1.shared.pool.freePacket p).objs[q]? = _
        rw [freePacket_other _ hne]
        exact a2 q (List.mem_cons_of_mem _ hm) (by rintro ⟨⟩; exact hne rfl)
      · intro q hq
        have hm : q ∈ ts.flatMap Row.l ++ todo ++ K.l := List.mem_append_right _ hq
        have hne : p ≠ q := fun e => hnp (e ▸ hm)
        show (d1.shared.pool.freePacket p).objs[q]? = _
        rw [freePacket_other _ hne]
        exact (a2 q (List.mem_cons_of_mem _ hm) (by rintro ⟨⟩; exact hne rfl)).trans (h.frame q hq)
      · exact PoolInv.free a1
  · have hs : ObjSim K { d with shared := { d.shared with theirs := p :: d.shared.theirs } } ts todo xs s := by
      refine ⟨h.base, h.queues, h.packets, h.rows, hxs, h.frame, h.inv.perm ?_⟩
      show ((ts.flatMap Row.l ++ p :: todo ++ K.l) ++ d.shared.theirs).Perm ((ts.flatMap Row.l ++ todo ++ K.l) ++ p :: d.shared.theirs)
      exact (perm1.append_right _).trans List.perm_middle.symm
    have hv : s.forwardPacket x = ok (s.call [.packet x]) := by
      simp only [Demuxer.forwardPacket]
      rw [if_neg (by show ¬ s.autoFree = true; rw [f6]; exact ha)]
    have hf : d.forwardPacket o p =
        ok (({ d with shared := { d.shared with theirs := p :: d.shared.theirs } } : ObjDemuxer).tell o (.packet x) none) := by
      simp only [ObjDemuxer.forwardPacket, hi, ok_bind, ha]
      rfl
    exact Or.inl ⟨_, _, hf, hv, hs.tell ho _⟩

theorem forwardAll_sim {o : ObjOracle} (ho : o.Valid) {ts : List Row} (todo : List Nat) : ∀ {d : ObjDemuxer} {xs : List AVPacket} {s : Demuxer},
    ObjSim K d ts todo xs s → Agrees K (d.forwardAll o todo) (s.forwardAll xs) := by
  induction todo with
  | nil =>
    intro d xs s h
    have : xs = [] := by have := h.rest; simpa using this.symm
    subst this
    exact ⟨ts, h⟩
  | cons p todo ih =>
    intro d xs s h
    cases xs with
    | nil => have := h.rest; simp at this
    | cons x xs =>
      rcases forward_sim ho h with ⟨d', s', e1, e2, h'⟩ | ⟨e1, e2⟩
      · simp only [ObjDemuxer.forwardAll, Demuxer.forwardAll, e1, e2, ok_bind]
        exact ih h'
      · simp only [ObjDemuxer.forwardAll, Demuxer.forwardAll, e1, e2, panic_bind]
        trivial

end Avf
