import Verif.Lemmas.ThreadLogic
import Verif.Lemmas.DemuxerObjectsRun
/-! # Helper lemmas: a demuxer in a goroutine behaves like a demuxer with packet values -/
namespace Avf
open Go PacketPool
namespace Threads

/-- `d`, with the packets `h`, is `s` with packet values; the packets `todo` are the demuxer's too and have the values `xs`. -/
structure Own (h : Heap) (d : TDemuxer) (todo : List Nat) (xs : List AVPacket) (s : Demuxer) : Prop where
  base : s = { d.base with packets := s.packets }
  queues : d.queues.map (·.map h) = s.packets.map (·.map some)
  rest : todo.map h = xs.map some
  kept : ∀ p ∈ d.kept, ∃ x, h p = some x
  distinct : (d.queues.flatten ++ todo ++ d.kept).Nodup
  dom : ∀ p, h p ≠ none → p ∈ d.queues.flatten ++ todo ++ d.kept

/-- Results agree. -/
def Out (todo : List Nat) (xs : List AVPacket) (h : Heap) : Go TDemuxer → Go Demuxer → Prop
  | .ok d, .ok s => Own h d todo xs s
  | .panic, .panic => True
  | .err _, .err _ => True
  | _, _ => False

variable {h : Heap} {d : TDemuxer} {todo : List Nat} {xs : List AVPacket} {s : Demuxer}

theorem Own.fields (w : Own h d todo xs s) :
    s.name = d.base.name ∧ s.tracks = d.base.tracks ∧ s.orderedStreams = d.base.orderedStreams ∧ s.probeDuration = d.base.probeDuration ∧
    s.completed = d.base.completed ∧ s.autoFree = d.base.autoFree ∧ s.bufferOf = d.base.bufferOf ∧ s.calls = d.base.calls := by
  have h := w.base
  generalize s.packets = P at h
  subst h
  exact ⟨rfl, rfl, rfl, rfl, rfl, rfl, rfl, rfl⟩

theorem Own.put (w : Own h d todo xs s) : s = d.base.put s.packets := w.base

theorem Own.len (w : Own h d todo xs s) : d.queues.length = s.packets.length := by
  have := congrArg List.length w.queues
  simpa using this

/-- A change of the base that does not touch packets. -/
theorem Own.rebase (w : Own h d todo xs s) (b : Demuxer) : Own h { d with base := b } todo xs { b with packets := s.packets } :=
  ⟨rfl, w.queues, w.rest, w.kept, w.distinct, w.dom⟩

theorem Own.call (w : Own h d todo xs s) (cs : List Call) : Own h { d with base := d.base.call cs } todo xs (s.call cs) := by
  have e : s.call cs = { d.base.call cs with packets := s.packets } := by
    have := w.base
    generalize s.packets = P at this ⊢
    subst this; rfl
  rw [e]
  exact w.rebase _

/-- What the demuxer has stays. -/
theorem Own.frame {todo' : List Nat} {xs' : List AVPacket} (w : Own h d todo xs s) {h' : Heap}
    (hx : todo'.map h = xs'.map some) (hk : ∀ q ∈ d.queues.flatten ++ todo' ++ d.kept, h' q = h q) :
    d.queues.map (·.map h') = s.packets.map (·.map some) ∧ todo'.map h' = xs'.map some ∧ ∀ p ∈ d.kept, ∃ x, h' p = some x := by
  refine ⟨?_, ?_, ?_⟩
  · rw [← w.queues]
    refine List.map_congr_left fun q hq => List.map_congr_left fun p hp => hk p ?_
    exact List.mem_append_left _ (List.mem_append_left _ (List.mem_flatten.2 ⟨q, hq, hp⟩))
  · rw [← hx]
    exact List.map_congr_left fun p hp => hk p (List.mem_append_left _ (List.mem_append_right _ hp))
  · intro p hp
    rw [hk p (List.mem_append_right _ hp)]
    exact w.kept p hp

/-- Something nobody has is added to what the handler has. -/
theorem Own.gain (w : Own h d todo xs s) {p : Nat} (hp : h p = none) (x : AVPacket) :
    Own (h.set p (some x)) { d with kept := p :: d.kept } todo xs s := by
  have hn : p ∉ d.queues.flatten ++ todo ++ d.kept := by
    intro hm
    rcases List.mem_append.1 hm with hm | hm
    · rcases List.mem_append.1 hm with hm | hm
      · obtain ⟨q, hq, hpq⟩ := List.mem_flatten.1 hm
        have h1 : none ∈ q.map h := List.mem_map.2 ⟨p, hpq, hp⟩
        have h2 : q.map h ∈ s.packets.map (·.map some) := by rw [← w.queues]; exact List.mem_map.2 ⟨q, hq, rfl⟩
        obtain ⟨v, _, e⟩ := List.mem_map.1 h2
        rw [← e] at h1
        simp at h1
      · have h1 : none ∈ todo.map h := List.mem_map.2 ⟨p, hm, hp⟩
        rw [w.rest] at h1
        simp at h1
    · obtain ⟨x, hx⟩ := w.kept p hm
      rw [hp] at hx; cases hx
  obtain ⟨w1, w2, w3⟩ := w.frame (h' := h.set p (some x)) w.rest fun q hq => Heap.set_other _ _ fun e => hn (e ▸ hq)
  refine ⟨w.base, w1, w2, ?_, ?_, ?_⟩
  · intro q hq
    rcases List.mem_cons.1 hq with rfl | hq
    · exact ⟨x, Heap.set_self ..⟩
    · exact w3 q hq
  · exact List.perm_middle.nodup_iff.2 (List.nodup_cons.2 ⟨hn, w.distinct⟩)
  · intro q hq
    refine List.perm_middle.mem_iff.2 (List.mem_cons.2 ?_)
    by_cases e : q = p
    · exact Or.inl e
    · rw [Heap.set_other _ _ e] at hq
      exact Or.inr (w.dom q hq)

/-- A packet changes from the demuxer to its handler. -/
theorem Own.hand {p : Nat} {x : AVPacket} (w : Own h d (p :: todo) (x :: xs) s) : Own h { d with kept := p :: d.kept } todo xs s := by
  have hr := w.rest
  simp only [List.map_cons, List.cons.injEq] at hr
  have hperm : (d.queues.flatten ++ p :: todo ++ d.kept).Perm (d.queues.flatten ++ todo ++ p :: d.kept) := by
    have h1 : (d.queues.flatten ++ p :: todo ++ d.kept).Perm (p :: (d.queues.flatten ++ todo ++ d.kept)) :=
      List.perm_middle.append_right _
    exact h1.trans List.perm_middle.symm
  refine ⟨w.base, w.queues, hr.2, ?_, hperm.nodup_iff.1 w.distinct, fun q hq => hperm.mem_iff.1 (w.dom q hq)⟩
  intro q hq
  rcases List.mem_cons.1 hq with rfl | hq
  · exact ⟨x, hr.1⟩
  · exact w.kept q hq

/-- And back. -/
theorem Own.take {p : Nat} {x : AVPacket} {K : List Nat} (w : Own h { d with kept := p :: K } todo xs s) (hx : h p = some x) :
    Own h { d with kept := K } (p :: todo) (x :: xs) s := by
  have hperm : (d.queues.flatten ++ todo ++ p :: K).Perm (d.queues.flatten ++ p :: todo ++ K) := by
    have h1 : (d.queues.flatten ++ p :: todo ++ K).Perm (p :: (d.queues.flatten ++ todo ++ K)) :=
      List.perm_middle.append_right _
    exact List.perm_middle.trans h1.symm
  refine ⟨w.base, w.queues, ?_, fun q hq => w.kept q (List.mem_cons_of_mem _ hq), hperm.nodup_iff.1 w.distinct,
    fun q hq => hperm.mem_iff.1 (w.dom q hq)⟩
  simp only [List.map_cons, hx, w.rest]

theorem Own.first {p : Nat} {x : AVPacket} (w : Own h d (p :: todo) (x :: xs) s) : h p = some x := by
  have hr := w.rest
  simp only [List.map_cons, List.cons.injEq] at hr
  exact hr.1

theorem Own.notMem {p : Nat} {x : AVPacket} (w : Own h d (p :: todo) (x :: xs) s) : p ∉ d.queues.flatten ++ todo ++ d.kept := by
  have h1 : (d.queues.flatten ++ p :: todo ++ d.kept).Perm (p :: (d.queues.flatten ++ todo ++ d.kept)) :=
    List.perm_middle.append_right _
  exact (List.nodup_cons.1 (h1.nodup_iff.1 w.distinct)).1

/-- A packet is taken away. -/
theorem Own.drop {p : Nat} {x : AVPacket} (w : Own h d (p :: todo) (x :: xs) s) : Own (h.set p none) d todo xs s := by
  have hr := w.rest
  simp only [List.map_cons, List.cons.injEq] at hr
  have h1 : (d.queues.flatten ++ p :: todo ++ d.kept).Perm (p :: (d.queues.flatten ++ todo ++ d.kept)) :=
    List.perm_middle.append_right _
  obtain ⟨w1, w2, w3⟩ := w.frame (h' := h.set p none) hr.2 fun q hq => Heap.set_other _ _ fun e => w.notMem (e ▸ hq)
  refine ⟨w.base, w1, w2, w3, (List.nodup_cons.1 (h1.nodup_iff.1 w.distinct)).2, fun q hq => ?_⟩
  by_cases e : q = p
  · subst e; rw [Heap.set_self] at hq; exact absurd rfl hq
  · rw [Heap.set_other _ _ e] at hq
    exact (List.mem_cons.1 (h1.mem_iff.1 (w.dom q hq))).resolve_left e

/-- A packet is written. -/
theorem Own.write {p : Nat} {x : AVPacket} (w : Own h d (p :: todo) (x :: xs) s) (y : AVPacket) :
    Own (h.set p (some y)) d (p :: todo) (y :: xs) s := by
  have hr := w.rest
  simp only [List.map_cons, List.cons.injEq] at hr
  obtain ⟨w1, w2, w3⟩ := w.frame (h' := h.set p (some y)) hr.2 fun q hq => Heap.set_other _ _ fun e => w.notMem (e ▸ hq)
  refine ⟨w.base, w1, ?_, w3, w.distinct, fun q hq => ?_⟩
  · simp only [List.map_cons, w2, Heap.set_self]
  · by_cases e : q = p
    · subst e; simp
    · rw [Heap.set_other _ _ e] at hq
      exact w.dom q hq

/-- A new packet. -/
theorem Own.fresh (w : Own h d todo xs s) {p : Nat} (hp : h p = none) (x : AVPacket) :
    Own (h.set p (some x)) d (p :: todo) (x :: xs) s := by
  have := (w.gain hp x).take (Heap.set_self ..)
  exact this

/-- The order of what the handler has. -/
theorem Own.keptPerm {K : List Nat} (w : Own h d todo xs s) (hp : d.kept.Perm K) : Own h { d with kept := K } todo xs s :=
  ⟨w.base, w.queues, w.rest, fun q hq => w.kept q (hp.mem_iff.2 hq), (List.Perm.append_left _ hp).nodup_iff.1 w.distinct,
    fun q hq => (List.Perm.append_left _ hp).mem_iff.1 (w.dom q hq)⟩

theorem perm_eraseIdx {l : List Nat} {i p : Nat} (hi : l[i]? = some p) : l.Perm (p :: l.eraseIdx i) := by
  obtain ⟨hl, rfl⟩ := List.getElem?_eq_some_iff.1 hi
  exact (List.getElem_cons_eraseIdx_perm hl).symm

/-! ## The handler -/

theorem act_safe (w : Own h d todo xs s) (a : HandlerAct) :
    Safe (a.run d.kept) h fun h' r => ∃ K, r = ok K ∧ Own h' { d with kept := K } todo xs s := by
  cases a with
  | make fs =>
    show Safe (newPacket fs >>= fun p => pure (p :: d.kept)) h _
    exact safe_new fun p x hp _ => ⟨_, rfl, w.gain hp _⟩
  | use i f =>
    show Safe (match d.kept[i]? with
      | some p => .store p f (.stop (.ok d.kept))
      | none => .stop (.ok d.kept)) h _
    cases hi : d.kept[i]? with
    | none => exact ⟨_, rfl, w⟩
    | some p =>
      obtain ⟨x, hx⟩ := w.kept p (List.mem_of_getElem? hi)
      have hperm := perm_eraseIdx hi
      refine ⟨x, hx, d.kept, rfl, ?_⟩
      have := ((((w.keptPerm hperm).take hx).write (f x)).hand).keptPerm hperm.symm
      exact this
  | free i =>
    show Safe (match d.kept[i]? with
      | some p => freePacket p >>= fun _ => pure (d.kept.eraseIdx i)
      | none => .stop (.ok d.kept)) h _
    cases hi : d.kept[i]? with
    | none => exact ⟨_, rfl, w⟩
    | some p =>
      obtain ⟨x, hx⟩ := w.kept p (List.mem_of_getElem? hi)
      have hperm := perm_eraseIdx hi
      exact safe_free hx ⟨_, rfl, ((w.keptPerm hperm).take hx).drop⟩
  | send i =>
    show Safe (match d.kept[i]? with
      | some p => .send p (.stop (.ok (d.kept.eraseIdx i)))
      | none => .stop (.ok d.kept)) h _
    cases hi : d.kept[i]? with
    | none => exact ⟨_, rfl, w⟩
    | some p =>
      obtain ⟨x, hx⟩ := w.kept p (List.mem_of_getElem? hi)
      have hperm := perm_eraseIdx hi
      exact ⟨⟨x, hx⟩, _, rfl, ((w.keptPerm hperm).take hx).drop⟩
  | recv => exact ⟨fun p x hp => ⟨_, rfl, w.gain hp x⟩, _, rfl, w⟩

theorem acts_safe (l : List HandlerAct) : ∀ {h : Heap} {d : TDemuxer}, Own h d todo xs s →
    Safe (runActs l d.kept) h fun h' r => ∃ K, r = ok K ∧ Own h' { d with kept := K } todo xs s := by
  induction l with
  | nil => intro h d w; exact ⟨_, rfl, w⟩
  | cons a l ih =>
    intro h d w
    show Safe (a.run d.kept >>= fun kept => runActs l kept) h _
    exact Safe.bindOk (act_safe w a) fun h' K w' => ih w'

theorem tell_safe (o : TOracle) (w : Own h d todo xs s) (c : Call) :
    Safe (d.tell o c) h fun h' r => ∃ d', r = ok d' ∧ (Own h' d' todo xs (s.call [c]) ∧ d'.base = d.base.call [c] ∧ d'.queues = d.queues) := by
  show Safe (runActs _ d.kept >>= fun kept => pure ({ d with base := d.base.call [c], kept := kept } : TDemuxer)) h _
  refine Safe.bindOk (acts_safe _ w) fun h' K w' => ⟨_, rfl, ?_, rfl, rfl⟩
  exact w'.call [c]

theorem tells_safe (o : TOracle) (cs : List Call) : ∀ {h : Heap} {d : TDemuxer} {s : Demuxer}, Own h d todo xs s →
    Safe (d.tells o cs) h fun h' r => ∃ d', r = ok d' ∧ Own h' d' todo xs (s.call cs) := by
  induction cs with
  | nil => intro h d s w; exact ⟨d, rfl, by simpa [Demuxer.call] using w⟩
  | cons c cs ih =>
    intro h d s w
    show Safe (d.tell o c >>= fun d => d.tells o cs) h _
    refine Safe.bindOk (tell_safe o w c) fun h' d' w' => ?_
    have := ih w'.1
    simpa [Demuxer.call] using this

/-- A packet goes out. -/
theorem forward_safe {o : TOracle} (ho : o.Valid) {p : Nat} {x : AVPacket} (w : Own h d (p :: todo) (x :: xs) s) :
    Safe (d.forwardPacket o p) h fun h' r => Out todo xs h' r (s.forwardPacket x) := by
  obtain ⟨f1, f2, f3, f4, f5, f6, f7, f8⟩ := w.fields
  unfold TDemuxer.forwardPacket
  refine safe_load w.first ?_
  by_cases ha : d.base.autoFree
  · rw [if_pos ha]
    refine safe_stores _ w.first ?_
    refine Safe.bindOk (tell_safe o (w.write (o.touch d.base.calls.length x)) (.packet x)) fun h1 d1 w1 => ?_
    obtain ⟨w1, e1, e2⟩ := w1
    refine safe_load w1.first ?_
    have hv : s.forwardPacket x = (match s.bufferOf.lookup x.index with
        | none => Go.panic
        | some b => ok ((s.call [.packet x]).call [.discardHead b, .free x])) := by
      simp only [Demuxer.forwardPacket]
      rw [if_pos (by show s.autoFree = true; rw [f6]; exact ha)]
      rfl
    have hb : d1.base.bufferOf = s.bufferOf := by rw [e1, f7]; rfl
    rw [hv, hb, ho.touch]
    cases hl : s.bufferOf.lookup x.index with
    | none => trivial
    | some b => exact safe_free w1.first ((w1.drop).call _)
  · rw [if_neg ha]
    have hv : s.forwardPacket x = ok (s.call [.packet x]) := by
      simp only [Demuxer.forwardPacket]
      rw [if_neg (by show ¬ s.autoFree = true; rw [f6]; exact ha)]
    rw [hv]
    refine (tell_safe o w.hand (.packet x)).mono _ ?_
    rintro h' r ⟨d', rfl, w', _⟩
    exact w'

theorem forwardAll_safe {o : TOracle} (ho : o.Valid) (todo : List Nat) : ∀ {h : Heap} {d : TDemuxer} {xs : List AVPacket} {s : Demuxer},
    Own h d todo xs s → Safe (d.forwardAll o todo) h fun h' r => Out [] [] h' r (s.forwardAll xs) := by
  induction todo with
  | nil =>
    intro h d xs s w
    have : xs = [] := by have := w.rest; simpa using this.symm
    subst this
    exact w
  | cons p todo ih =>
    intro h d xs s w
    cases xs with
    | nil => have := w.rest; simp at this
    | cons x xs =>
      show Safe (d.forwardPacket o p >>= fun d => d.forwardAll o todo) h _
      refine Safe.bind _ ((forward_safe ho w).mono _ fun h' r hr => ?_)
      simp only [Demuxer.forwardAll]
      cases hs : s.forwardPacket x <;> cases r <;> rw [hs] at hr
      case ok.ok s' d' => exact ih hr
      case err.err => trivial
      case panic.panic => trivial
      all_goals exact hr.elim

/-! ## The end of probing -/

theorem heads_end (qs : List (List Nat)) : ∀ {h : Heap} {P : List (List AVPacket)}, qs.map (·.map h) = P.map (·.map some) →
    Safe (TDemuxer.heads qs) h fun h' r => ∃ a, r = ok a ∧ h' = h ∧ a = P.map (List.take 1) := by
  induction qs with
  | nil =>
    intro h P hp
    have : P = [] := by simpa using hp.symm
    subst this
    exact ⟨_, rfl, rfl, rfl⟩
  | cons q qs ih =>
    intro h P hp
    cases P with
    | nil => simp at hp
    | cons v P =>
      simp only [List.map_cons, List.cons.injEq] at hp
      show Safe (loads (q.take 1) >>= fun xs => TDemuxer.heads qs >>= fun r => pure (xs :: r)) h _
      refine safe_loads (xs := v.take 1) (by rw [List.map_take, hp.1, List.map_take]) (Safe.bindOk (ih hp.2) ?_)
      rintro h' a ⟨rfl, rfl⟩
      exact ⟨_, rfl, rfl, rfl⟩

theorem prepare_safe (u : Int) (w : Own h d todo xs s) :
    Safe (d.prepareTracks u) h fun h' r => ∃ d', r = ok d' ∧ h' = h ∧ ∃ s', s.prepareTracks u = ok s' ∧ Own h d' todo xs s' := by
  have hb := w.base
  show Safe (TDemuxer.heads d.queues >>= fun ps => _) h _
  refine Safe.bindOk (heads_end _ w.queues) ?_
  rintro h' a ⟨rfl, rfl⟩
  show Safe (Prog.stop (({ d.base with packets := s.packets.map (List.take 1) } : Demuxer).prepareTracks u) >>= fun s => pure ({ d with base := { s with packets := d.base.packets } } : TDemuxer)) _ _
  rw [Demuxer.prepare_eq]
  refine ⟨_, rfl, rfl, _, Demuxer.prepare_eq u s, ?_⟩
  dsimp only
  rw [retune_heads]
  have := w.rebase { d.base with tracks := ⟨d.base.tracks.tracks.map (Demuxer.retune u s.packets)⟩ }
  convert this using 1
  generalize s.packets = P at hb ⊢
  subst hb; rfl

theorem drain_eq (q : List AVPacket) : Demuxer.drain q = (q.take (q.length - 1), q.drop (q.length - 1)) := by
  unfold Demuxer.drain
  dsimp only
  by_cases hq : (q.length : Int) - 2 < 0
  · rw [if_pos hq, show q.length - 1 = 0 by omega]; simp
  · rw [if_neg hq, show ((q.length : Int) - 2 + 1).toNat = q.length - 1 by omega]

/-- The order of the values. -/
def TOracle.sorter (o : TOracle) (xs : List AVPacket) : List AVPacket := (o.positions xs).filterMap (xs[·]?)

theorem filterMap_range {α : Type} (xs : List α) : (List.range xs.length).filterMap (xs[·]?) = xs := by
  have key : ∀ n, n ≤ xs.length → (List.range n).filterMap (xs[·]?) = xs.take n := by
    intro n
    induction n with
    | zero => intro _; simp
    | succ n ih =>
      intro hn
      rw [List.range_succ, List.filterMap_append, ih (by omega), List.take_add_one, List.getElem?_eq_getElem (by omega)]
      simp [List.getElem?_eq_getElem (show n < xs.length by omega)]
  rw [key _ (Nat.le_refl _), List.take_length]

theorem sorter_ok {o : TOracle} (ho : o.Valid) : SortOk o.sorter := by
  refine ⟨fun l => ?_, ho.sorted⟩
  have := (ho.positions l).filterMap (l[·]?)
  rwa [filterMap_range] at this

/-- The same order for the pointers. -/
theorem sorted_pointers {l : List Nat} {xs : List AVPacket} (hx : l.map h = xs.map some) (ns : List Nat) :
    (ns.filterMap (l[·]?)).map h = (ns.filterMap (xs[·]?)).map some := by
  have key : ∀ i : Nat, (l[i]?).map h = (xs[i]?).map some := by
    intro i
    have := congrArg (·[i]?) hx
    simpa only [List.getElem?_map] using this
  induction ns with
  | nil => rfl
  | cons i ns ih =>
    have hk := key i
    cases h1 : l[i]? with
    | none =>
      rw [h1] at hk
      cases h2 : xs[i]? with
      | none => simpa [h1, h2] using ih
      | some x => rw [h2] at hk; cases hk
    | some p =>
      rw [h1] at hk
      cases h2 : xs[i]? with
      | none => rw [h2] at hk; cases hk
      | some x =>
        rw [h2] at hk
        have hk : h p = some x := by simpa using hk
        simp [h1, h2, hk, ih]

theorem taken_perm (Q : List (List Nat)) : Q.flatten.Perm
    ((Q.map fun q => q.drop (q.length - 1)).flatten ++ Q.flatMap fun q => q.take (q.length - 1)) := by
  induction Q with
  | nil => simp
  | cons q Q ih =>
    simp only [List.flatten_cons, List.map_cons, List.flatMap_cons]
    have h1 : q.Perm (q.drop (q.length - 1) ++ q.take (q.length - 1)) := by
      conv_lhs => rw [← List.take_append_drop (q.length - 1) q]
      exact List.perm_append_comm
    refine (h1.append ih).trans ?_
    simp only [List.append_assoc]
    refine List.Perm.append_left _ ?_
    rw [← List.append_assoc, ← List.append_assoc]
    exact List.Perm.append_right _ List.perm_append_comm

theorem taken_values {Q : List (List Nat)} : ∀ {P : List (List AVPacket)}, Q.map (·.map h) = P.map (·.map some) →
    (Q.flatMap fun q => q.take (q.length - 1)).map h = (P.flatMap fun q => (Demuxer.drain q).1).map some ∧
    (Q.map fun q => q.drop (q.length - 1)).map (·.map h) = (P.map fun q => (Demuxer.drain q).2).map (·.map some) := by
  induction Q with
  | nil =>
    intro P hp
    have : P = [] := by simpa using hp.symm
    subst this
    exact ⟨rfl, rfl⟩
  | cons q Q ih =>
    intro P hp
    cases P with
    | nil => simp at hp
    | cons v P =>
      simp only [List.map_cons, List.cons.injEq] at hp
      obtain ⟨i1, i2⟩ := ih hp.2
      have hl : q.length = v.length := by have := congrArg List.length hp.1; simpa using this
      constructor
      · simp only [List.flatMap_cons, List.map_append, i1, drain_eq, List.map_take, hp.1, hl]
      · simp only [List.map_cons, List.cons.injEq, drain_eq, List.map_drop, hp.1, hl, true_and]
        simpa only [drain_eq] using i2

theorem complete_safe {o : TOracle} (ho : o.Valid) {o' : Oracle} (hu : o'.undef = o.undef) (hs : o'.sort = o.sorter)
    (w : Own h d [] [] s) : Safe (d.onProbeComplete o) h fun h' r => Out [] [] h' r (s.onProbeComplete o') := by
  obtain ⟨f1, f2, f3, f4, f5, f6, f7, f8⟩ := w.fields
  unfold TDemuxer.onProbeComplete Demuxer.onProbeComplete
  rw [f5]
  by_cases hc : d.base.completed = true
  · rw [if_pos hc, if_pos hc]
    exact w
  · rw [if_neg hc, if_neg hc]
    dsimp only
    rw [hu, hs]
    have w1 : Own h { d with base := { d.base with completed := true } } [] [] { s with completed := true } := by
      have := w.rebase { d.base with completed := true }
      convert this using 1
      have hb := w.base
      generalize s.packets = P at hb ⊢
      subst hb; rfl
    by_cases ht : d.base.tracks.size = 0
    · rw [if_pos ht, if_pos (by rw [f2]; exact ht)]
      refine (tell_safe o w1 .trackNotFound).mono _ ?_
      rintro h' r ⟨d', rfl, w', _⟩
      exact w'
    · rw [if_neg ht, if_neg (by rw [f2]; exact ht)]
      refine Safe.bindOk (prepare_safe o.undef w1) ?_
      rintro h' d2 ⟨rfl, s2, e2, w2⟩
      rw [e2, ok_bind]
      have ht2 : s2.tracks = d2.base.tracks := w2.fields.2.1
      rw [ht2]
      refine Safe.bindOk (tells_safe o _ w2) fun h3 d3 w3 => ?_
      refine Safe.bindOk (tell_safe o w3 .trackComplete) fun h4 d4 w4 => ?_
      replace w4 := w4.1
      generalize (s2.call (d2.base.tracks.tracks.map .newTrack)).call [.trackComplete] = s4 at w4 ⊢
      obtain ⟨t1, t2⟩ := taken_values w4.queues
      refine safe_loads t1 ?_
      have hperm : (d4.queues.flatten ++ [] ++ d4.kept).Perm ((d4.queues.map fun q : List Nat => q.drop (q.length - 1)).flatten ++
          ((o.positions (s4.packets.flatMap fun q => (Demuxer.drain q).1)).filterMap
            ((d4.queues.flatMap fun q : List Nat => q.take (q.length - 1))[·]?)) ++ d4.kept) := by
        have hlen : (s4.packets.flatMap fun q => (Demuxer.drain q).1).length = (d4.queues.flatMap fun q : List Nat => q.take (q.length - 1)).length := by
          have := congrArg List.length t1
          simpa using this.symm
        have hp := (ho.positions (s4.packets.flatMap fun q => (Demuxer.drain q).1)).filterMap
          ((d4.queues.flatMap fun q : List Nat => q.take (q.length - 1))[·]?)
        rw [hlen, filterMap_range] at hp
        rw [List.append_nil]
        exact List.Perm.append_right _ ((taken_perm _).trans (List.Perm.append_left _ hp.symm))
      refine forwardAll_safe ho _ ⟨?_, t2, sorted_pointers t1 _, w4.kept, hperm.nodup_iff.1 w4.distinct,
        fun q hq => hperm.mem_iff.1 (w4.dom q hq)⟩
      have hb := w4.base
      dsimp only
      generalize s4.packets = P at hb ⊢
      subst hb; rfl

/-! ## Queueing -/

/-- A queue is put in the place of another. -/
theorem Own.replace {A B : List (List Nat)} {q q' : List Nat} {A' B' : List (List AVPacket)} {v v' : List AVPacket} {todo' : List Nat}
    {xs' : List AVPacket} (hq : d.queues = A ++ q :: B) (hv : s.packets = A' ++ v :: B') (hl : A.length = A'.length)
    (w : Own h d todo xs s) (hp : (q ++ todo).Perm (q' ++ todo')) (h1 : q'.map h = v'.map some) (h2 : todo'.map h = xs'.map some) :
    Own h { d with queues := A ++ q' :: B } todo' xs' { s with packets := A' ++ v' :: B' } := by
  have hw := w.queues
  rw [hq, hv] at hw
  simp only [List.map_append, List.map_cons] at hw
  obtain ⟨e1, e2⟩ := List.append_inj hw (by simpa using hl)
  simp only [List.cons.injEq] at e2
  have hperm : (d.queues.flatten ++ todo ++ d.kept).Perm ((A ++ q' :: B).flatten ++ todo' ++ d.kept) := by
    rw [hq]
    refine List.Perm.append_right _ ?_
    simp only [List.flatten_append, List.flatten_cons]
    have e1 : ∀ (a b c d : List Nat), (a ++ (b ++ c) ++ d).Perm (a ++ c ++ (b ++ d)) := by
      intro a b c d
      rw [List.append_assoc, List.append_assoc, List.append_assoc]
      refine List.Perm.append_left _ ?_
      rw [← List.append_assoc, ← List.append_assoc]
      exact List.Perm.append_right _ List.perm_append_comm
    exact (e1 _ _ _ _).trans ((List.Perm.append_left _ hp).trans (e1 _ _ _ _).symm)
  refine ⟨?_, ?_, h2, w.kept, hperm.nodup_iff.1 w.distinct, fun q hq => hperm.mem_iff.1 (w.dom q hq)⟩
  · have hb := w.base
    dsimp only
    generalize s.packets = P at hb ⊢
    subst hb; rfl
  · simp only [List.map_append, List.map_cons, e1, e2.2, h1]

theorem enqueue_safe {o : TOracle} (ho : o.Valid) {o' : Oracle} (hu : o'.undef = o.undef) (hs : o'.sort = o.sorter) (i : Int) {p : Nat}
    {x : AVPacket} (w : Own h d [p] [x] s) : Safe (d.enqueue o i p) h fun h' r => Out [] [] h' r (s.enqueue o' i x) := by
  have hlen := w.len
  by_cases hi : 0 ≤ i ∧ i.toNat < s.packets.length
  · obtain ⟨n, rfl⟩ := Int.eq_ofNat_of_zero_le hi.1
    have hn : n < s.packets.length := hi.2
    -- the queue
    obtain ⟨A, q, B, hq, hA⟩ : ∃ A q B, d.queues = A ++ q :: B ∧ A.length = n :=
      ⟨d.queues.take n, d.queues[n]'(by omega), d.queues.drop (n + 1), by simp, by simp; omega⟩
    obtain ⟨A', v, B', hv, hA'⟩ : ∃ A' v B', s.packets = A' ++ v :: B' ∧ A'.length = n :=
      ⟨s.packets.take n, s.packets[n], s.packets.drop (n + 1), by simp, by simp; omega⟩
    have hl : A.length = A'.length := hA.trans hA'.symm
    have hqv : q.map h = v.map some := by
      have hw := w.queues
      rw [hq, hv] at hw
      simp only [List.map_append, List.map_cons] at hw
      obtain ⟨_, e2⟩ := List.append_inj hw (by simpa using hl)
      simp only [List.cons.injEq] at e2
      exact e2.1
    have hset : ∀ q' : List Nat, d.queues.set (n : Int).toNat q' = A ++ q' :: B := by
      intro q'
      rw [hq, Int.toNat_natCast, ← hA, set_mid]
    have hget : idxI d.queues (n : Int) = ok q := by rw [hq, ← hA]; exact get_mid A q B
    unfold TDemuxer.enqueue
    rw [hget]
    show Safe (if ((q ++ [p]).length : Int) - 2 < 0 then _ else _) h _
    rcases List.eq_nil_or_concat q with rfl | ⟨ws, pp, rfl⟩
    · have hve : v = [] := by simpa using hqv.symm
      subst hve
      rw [if_pos (by simp)]
      rw [← hA', enqueue_first o' hv, hA', hset]
      exact w.replace hq hv hl (by simp) (by simpa using w.first) rfl
    · rcases List.eq_nil_or_concat v with rfl | ⟨us, y, rfl⟩
      · simp at hqv
      simp only [List.concat_eq_append] at hq hv hqv ⊢
      rw [List.map_append, List.map_append, List.map_singleton, List.map_singleton] at hqv
      obtain ⟨g1, g2⟩ := List.append_inj' hqv (by simp)
      simp only [List.cons.injEq, and_true] at g2
      rw [if_neg (by simp)]
      have e : ((ws ++ [pp] ++ [p]).length : Int) - 2 = (ws.length : Int) := by simp
      have e1 : idxI (ws ++ [pp] ++ [p]) (ws.length : Int) = ok pp := by
        rw [show ws ++ [pp] ++ [p] = ws ++ pp :: [p] by simp]; exact get_mid ..
      rw [e]
      simp only [e1, hset]
      refine safe_load w.first ?_
      refine safe_stores _ g2 ?_
      -- the packet before the last is written
      have w1 := w.replace (q' := ws) (v' := us) (todo' := [pp, p]) (xs' := [y, x]) hq hv hl (by simp) g1 (by simp [g2, w.first])
      have w2 := w1.write (withDuration y x)
      have r2 := w2.rest
      simp only [List.map_cons, List.map_nil, List.cons.injEq, and_true] at r2
      have g3 : ws.map (h.set pp (some (withDuration y x))) = us.map some := by
        have := w2.queues
        simp only [List.map_append, List.map_cons] at this
        obtain ⟨_, e2⟩ := List.append_inj this (by simpa using hl)
        simp only [List.cons.injEq] at e2
        exact e2.1
      have f5 : s.completed = d.base.completed := w.fields.2.2.2.2.1
      have f4 : s.probeDuration = d.base.probeDuration := w.fields.2.2.2.1
      show Safe (if d.base.completed = true then _ else _) (h.set pp (some (withDuration y x))) _
      by_cases hc : d.base.completed = true
      · rw [if_pos hc]
        have hc' : s.completed = true := by rw [f5]; exact hc
        rw [← hA', enqueue_completed o' hv x hc']
        have w3 := w2.replace (q' := ws ++ [p]) (v' := us ++ [x]) (todo' := [pp]) (xs' := [withDuration y x]) rfl rfl hl
          (by simpa using (List.Perm.swap p pp []).append_left ws) (by simp [g3, r2.2]) (by simp [r2.1])
        have e3 : (ws ++ [pp] ++ [p]).eraseIdx (ws.length : Int).toNat = ws ++ [p] := by
          rw [Int.toNat_natCast, show ws ++ [pp] ++ [p] = ws ++ pp :: [p] by simp, List.eraseIdx_append_of_length_le (Nat.le_refl _), Nat.sub_self]
          rfl
        rw [e3]
        exact forward_safe ho w3
      · rw [if_neg hc]
        have hc' : ¬ s.completed = true := by rw [f5]; exact hc
        rw [← hA', enqueue_probing o' hv x hc', hu]
        have e4 : (ws ++ [pp] ++ [p]).take ((ws.length : Int) + 1).toNat = ws ++ [pp] := by
          rw [show ((ws.length : Int) + 1).toNat = (ws ++ [pp]).length by simp]
          exact List.take_left
        rw [e4]
        refine safe_loads (xs := us ++ [withDuration y x]) (by simp [g3, r2.1]) ?_
        have w3 := w2.replace (q' := ws ++ [pp] ++ [p]) (v' := us ++ [withDuration y x, x]) (todo' := []) (xs' := []) rfl rfl hl
          (by simp) (by simp [g3, r2.1, r2.2]) rfl
        by_cases hd : Demuxer.probed o.undef (us ++ [withDuration y x]) ≥
            max (max s.probeDuration 200) (Demuxer.probed o.undef (us ++ [withDuration y x]))
        · rw [if_pos (by rw [← f4]; exact hd)]
          simp only [if_pos hd]
          exact complete_safe ho hu hs w3
        · rw [if_neg (by rw [← f4]; exact hd)]
          simp only [if_neg hd]
          exact w3
  · have p1 : idxI d.queues i = Go.panic := by
      unfold idxI
      by_cases h0 : i < 0
      · rw [if_pos h0]
      · rw [if_neg h0]
        unfold idx
        rw [List.getElem?_eq_none (by omega)]
    have p2 : idxI s.packets i = Go.panic := by
      unfold idxI
      by_cases h0 : i < 0
      · rw [if_pos h0]
      · rw [if_neg h0]
        unfold idx
        rw [List.getElem?_eq_none (by omega)]
    unfold TDemuxer.enqueue Demuxer.enqueue
    rw [p1, p2]
    trivial

theorem process_safe {o : TOracle} (ho : o.Valid) {o' : Oracle} (hu : o'.undef = o.undef) (hs : o'.sort = o.sorter) {p : Nat}
    {x : AVPacket} (w : Own h d [p] [x] s) :
    Safe (d.processBufferedPacket o p) h fun h' r => Out [] [] h' r (s.processBufferedPacket o' x) := by
  unfold TDemuxer.processBufferedPacket Demuxer.processBufferedPacket
  refine safe_load w.first ?_
  rw [w.len]
  by_cases hi : x.index < (s.packets.length : Int)
  · simp only [if_pos hi]
    exact enqueue_safe ho hu hs _ w
  · simp only [if_neg hi]
    refine enqueue_safe ho hu hs _ ⟨?_, ?_, w.rest, w.kept, ?_, fun q hq => ?_⟩
    · have hb := w.base
      dsimp only
      generalize s.packets = P at hb ⊢
      subst hb; rfl
    · simp [w.queues]
    · simpa using w.distinct
    · simpa using w.dom q hq

/-! ## Operations and histories -/

/-- The choices for packet values. -/
def TOracle.values (o : TOracle) (t : Byte) : Oracle := { o.toOracle with sort := o.sorter, audioType := t }

theorem TOracle.values_valid {o : TOracle} (ho : o.Valid) (t : Byte) : (o.values t).Valid :=
  ⟨ho.order, (sorter_ok ho).1, (sorter_ok ho).2, ho.index, ho.buffer⟩

theorem audio_safe {o : TOracle} (ho : o.Valid) (w : Own h d [] [] s) (b id : Int) (data : Bytes) (time : Int) :
    Safe (d.onAudioPacket o b id data time) h fun h' r =>
      ∃ t, (t = 0 ∨ t = packNone) ∧ Out [] [] h' r (s.onAudioPacket (o.values t) b id data time) := by
  have htr : ∀ t, ObjDemuxer.audioTrack (o.values t) s b id data = putR s.packets <$> ObjDemuxer.audioTrack o.toOracle d.base b id data := by
    intro t
    conv_lhs => rw [w.put]
    rw [Demuxer.put_audioTrack]
    rfl
  simp only [Demuxer.onAudioPacket_eq, htr]
  unfold TDemuxer.onAudioPacket
  cases hr : ObjDemuxer.audioTrack o.toOracle d.base b id data with
  | err m => exact ⟨0, Or.inl rfl, trivial⟩
  | panic => exact ⟨0, Or.inl rfl, trivial⟩
  | ok r =>
    obtain ⟨track, s1⟩ := r
    simp only [map_ok, ok_bind, putR]
    have w1 : Own h { d with base := s1 } [] [] (s1.put s.packets) := w.rebase s1
    cases track with
    | none => exact ⟨0, Or.inl rfl, w.rebase (s1.call [.discardBack b])⟩
    | some t =>
      dsimp only
      refine safe_new fun p x hp hb => ?_
      obtain ⟨b1, b2, b3, b4, b5, b6, b7⟩ := blank_fields hb
      have hval : (audioFields data time id t.index t.timebase ++ [fun x : AVPacket => { x with bufferIndex := b }]).foldl (fun (x : AVPacket) (g : AVPacket → AVPacket) => g x) x =
          { data := data, pts := time, dts := time, codecID := id, index := t.index, timebase := t.timebase, mediaType := mediaAudio
            packetType := x.packetType, bufferIndex := b } := by
        cases x
        simp only at b2 b3 b4 b5 b6 b7
        subst b2 b3 b4 b5 b6 b7
        rfl
      rw [hval]
      have w2 := w1.fresh hp
        { data := data, pts := time, dts := time, codecID := id, index := t.index, timebase := t.timebase, mediaType := mediaAudio
          packetType := x.packetType, bufferIndex := b }
      refine safe_load w2.first ?_
      exact (process_safe ho (o' := o.values x.packetType) rfl rfl (w2.call [.accepted
        { data := data, pts := time, dts := time, codecID := id, index := t.index, timebase := t.timebase, mediaType := mediaAudio
          packetType := x.packetType, bufferIndex := b }])).mono _ fun h' r hr => ⟨x.packetType, b1, hr⟩

theorem video_safe {o : TOracle} (ho : o.Valid) (w : Own h d [] [] s) (b id : Int) (data : Bytes) (key : Bool) (dts pts : Int) :
    Safe (d.onVideoPacket o b id data key dts pts) h fun h' r =>
      Out [] [] h' r (s.onVideoPacket (o.values 0) b id data key dts pts) := by
  have htr : ObjDemuxer.videoTrack (o.values 0) s b id data key = putR s.packets <$> ObjDemuxer.videoTrack o.toOracle d.base b id data key := by
    conv_lhs => rw [w.put]
    rw [Demuxer.put_videoTrack]
    rfl
  simp only [Demuxer.onVideoPacket_eq, htr]
  unfold TDemuxer.onVideoPacket
  cases hr : ObjDemuxer.videoTrack o.toOracle d.base b id data key with
  | err m => trivial
  | panic => trivial
  | ok r =>
    obtain ⟨track, s1⟩ := r
    simp only [map_ok, ok_bind, putR]
    have w1 : Own h { d with base := s1 } [] [] (s1.put s.packets) := w.rebase s1
    cases track with
    | none => exact w.rebase (s1.call [.discardBack b])
    | some t =>
      dsimp only
      refine safe_new fun p x hp hb => ?_
      obtain ⟨b1, b2, b3, b4, b5, b6, b7⟩ := blank_fields hb
      have hval : (videoFields data dts pts key s1.getPackType id t.index t.timebase ++
          [fun x => { x with bufferIndex := b }, o.preprocess]).foldl (fun (x : AVPacket) (g : AVPacket → AVPacket) => g x) x =
          o.preprocess { data := data, pts := pts, dts := dts, key := key, codecID := id, index := t.index, timebase := t.timebase
                         mediaType := mediaVideo, packetType := s1.getPackType, bufferIndex := b } := by
        cases x
        simp only at b2 b4 b5 b6 b7
        subst b2 b4 b5 b6 b7
        rfl
      rw [hval]
      have w2 := w1.fresh hp (o.preprocess { data := data, pts := pts, dts := dts, key := key, codecID := id, index := t.index, timebase := t.timebase
                                             mediaType := mediaVideo, packetType := s1.getPackType, bufferIndex := b })
      refine safe_load w2.first ?_
      exact process_safe ho (o' := o.values 0) rfl rfl (w2.call [.accepted _])

theorem try_safe {o : TOracle} (ho : o.Valid) (w : Own h d [] [] s) :
    Safe (d.tryCompleteProbe o) h fun h' r => Out [] [] h' r (s.tryCompleteProbe (o.values 0)) := by
  have ht : s.tracks = d.base.tracks := w.fields.2.1
  have hz : ∀ i : Int, (d.queues.zipIdx.any fun (q, j) => (j : Int) = i ∧ q.length < 2) = s.packets.zipIdx.any fun (q, j) => (j : Int) = i ∧ q.length < 2 := by
    intro i
    have h1 : ∀ Q : List (List Nat), (Q.zipIdx.any fun (q, j) => (j : Int) = i ∧ q.length < 2) =
        (Q.map (·.map h)).zipIdx.any fun (q, j) => (j : Int) = i ∧ q.length < 2 := by
      intro Q
      rw [List.zipIdx_map, List.any_map]
      congr 1
      funext ⟨q, j⟩
      simp
    have h2 : ∀ P : List (List AVPacket), (P.zipIdx.any fun (q, j) => (j : Int) = i ∧ q.length < 2) =
        (P.map (·.map some)).zipIdx.any fun (q, j) => (j : Int) = i ∧ q.length < 2 := by
      intro P
      rw [List.zipIdx_map, List.any_map]
      congr 1
      funext ⟨q, j⟩
      simp
    rw [h1, h2, w.queues]
  unfold TDemuxer.tryCompleteProbe Demuxer.tryCompleteProbe
  dsimp only
  simp only [ht, hz]
  split
  · exact w
  · exact complete_safe ho rfl rfl w

/-- One operation. -/
theorem step_safe {o : TOracle} (ho : o.Valid) (w : Own h d [] [] s) (e : DemuxOp) :
    Safe (d.step o e) h fun h' r => ∃ t, (t = 0 ∨ t = packNone) ∧ Out [] [] h' r (e.run (o.values t) s) := by
  have hput := w.put
  cases e with
  | findBufferIndex m =>
    refine ⟨0, Or.inl rfl, ?_⟩
    show Own _ _ _ _ (s.findBufferIndex m).2
    rw [hput, Demuxer.put_findBufferIndex]
    exact w.rebase _
  | newAudioTrack b id tb x c =>
    have e : s.onNewAudioTrack b id tb x c = putR s.packets <$> d.base.onNewAudioTrack b id tb x c := by
      conv_lhs => rw [hput]
      exact Demuxer.put_onNewAudioTrack ..
    simp only [TDemuxer.step, DemuxOp.run, e]
    cases d.base.onNewAudioTrack b id tb x c with
    | ok r => exact ⟨0, Or.inl rfl, w.rebase r.2⟩
    | err m => exact ⟨0, Or.inl rfl, trivial⟩
    | panic => exact ⟨0, Or.inl rfl, trivial⟩
  | newVideoTrack b id tb x =>
    have e : ∀ t, s.onNewVideoTrack (o.values t) b id tb x = putR s.packets <$> d.base.onNewVideoTrack o.toOracle b id tb x := by
      intro t
      conv_lhs => rw [hput]
      exact Demuxer.put_onNewVideoTrack ..
    simp only [TDemuxer.step, DemuxOp.run, e]
    cases d.base.onNewVideoTrack o.toOracle b id tb x with
    | ok r => exact ⟨0, Or.inl rfl, w.rebase r.2⟩
    | err m => exact ⟨0, Or.inl rfl, trivial⟩
    | panic => exact ⟨0, Or.inl rfl, trivial⟩
  | audioPacket b id data time => exact audio_safe ho w b id data time
  | videoPacket b id data key dts pts =>
    exact (video_safe ho w b id data key dts pts).mono _ fun _ _ hr => ⟨0, Or.inl rfl, hr⟩
  | probeComplete => exact (complete_safe ho (o' := o.values 0) rfl rfl w).mono _ fun _ _ hr => ⟨0, Or.inl rfl, hr⟩
  | tryCompleteProbe => exact (try_safe ho w).mono _ fun _ _ hr => ⟨0, Or.inl rfl, hr⟩
  | setProbeDuration n =>
    refine ⟨0, Or.inl rfl, ?_⟩
    rw [hput]
    exact w.rebase _

/-- A history. -/
theorem run_safe (H : List ((TOracle × DemuxOp) ⊕ HandlerAct)) : ∀ {h : Heap} {d : TDemuxer} {s : Demuxer},
    (∀ x ∈ opsOf H, x.1.Valid) → Own h d [] [] s →
    Safe (d.run H) h fun h' r => ∃ hist : List (Oracle × DemuxOp), hist.map Prod.snd = (opsOf H).map Prod.snd ∧
      (∀ x ∈ hist, x.1.Valid ∧ (x.1.audioType = 0 ∨ x.1.audioType = packNone)) ∧ Out [] [] h' r (runDemux s hist) := by
  induction H with
  | nil => intro h d s _ w; exact ⟨[], rfl, by simp, w⟩
  | cons x H ih =>
    intro h d s hv w
    rcases x with ⟨o, e⟩ | a
    case inr =>
      show Safe (a.run d.kept >>= fun kept => ({ d with kept := kept } : TDemuxer).run H) h _
      exact Safe.bindOk (act_safe w a) fun h' K w' => ih hv w'
    have hops : opsOf (.inl (o, e) :: H) = (o, e) :: opsOf H := rfl
    rw [hops] at hv ⊢
    have ho : o.Valid := hv (o, e) (List.mem_cons_self ..)
    show Safe (d.step o e >>= fun d => d.run H) h _
    refine Safe.bind _ ((step_safe ho w e).mono _ ?_)
    rintro h1 r ⟨t, ht, hr⟩
    have hhead : (o.values t).Valid ∧ ((o.values t).audioType = 0 ∨ (o.values t).audioType = packNone) :=
      ⟨TOracle.values_valid ho t, ht⟩
    have tail : ∀ x ∈ (o.values t, e) :: (opsOf H).map fun x => (exOracle, x.2), x.1.Valid ∧ (x.1.audioType = 0 ∨ x.1.audioType = packNone) := by
      intro x hx
      rcases List.mem_cons.1 hx with rfl | hx
      · exact hhead
      · obtain ⟨y, _, rfl⟩ := List.mem_map.1 hx
        exact ⟨exOracle_valid, Or.inl rfl⟩
    cases hs : e.run (o.values t) s <;> cases r <;> rw [hs] at hr
    case ok.ok s1 d1 =>
      refine (ih (fun x hx => hv x (List.mem_cons_of_mem _ hx)) hr).mono _ ?_
      rintro h2 r2 ⟨hist, q1, q2, q3⟩
      refine ⟨(o.values t, e) :: hist, by simp [q1], ?_, ?_⟩
      · intro x hx
        rcases List.mem_cons.1 hx with rfl | hx
        · exact hhead
        · exact q2 x hx
      · simp only [runDemux, hs, ok_bind]
        exact q3
    case err.err m m' =>
      refine ⟨(o.values t, e) :: (opsOf H).map fun x => (exOracle, x.2), by simp, tail, ?_⟩
      simp only [runDemux, hs, err_bind]
      trivial
    case panic.panic =>
      refine ⟨(o.values t, e) :: (opsOf H).map fun x => (exOracle, x.2), by simp, tail, ?_⟩
      simp only [runDemux, hs, panic_bind]
      trivial
    all_goals exact hr.elim

end Threads
end Avf
