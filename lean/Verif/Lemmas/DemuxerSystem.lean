import Verif.Spec.DemuxerSystem
import Verif.Props.DemuxerObjects
/-! # Helper lemmas: several demuxers with one pool -/
namespace Avf
open Go PacketPool

/-- A demuxer of a process: its state, the rows of its queues, the demuxer with values that it agrees with, and the history of that one. -/
structure Entry where
  core : DemuxCore
  ts : List Row
  s : Demuxer
  n : String × Bool

/-- The packets of a demuxer. -/
def Entry.l (x : Entry) : List Nat := x.ts.flatMap Row.l

structure Entry.Ok (objs : List AVPacket) (x : Entry) : Prop where
  base : x.s = { x.core.base with packets := x.s.packets }
  queues : x.core.queues = x.ts.map Row.q
  packets : x.s.packets = x.ts.map Row.vs
  rows : ∀ t ∈ x.ts, t.Ok objs

structure SysInv (H : List (Nat × ObjOracle × DemuxOp)) (names : List (String × Bool)) (S : ObjSystem) (es : List Entry) : Prop where
  cores : S.cores = es.map Entry.core
  names : names = es.map Entry.n
  ok : ∀ x ∈ es, x.Ok S.shared.pool.objs
  alone : ∀ i x, es[i]? = some x → Alone x.n.1 x.n.2 (ownOps i H) (.ok x.s)
  inv : PoolInv S.shared.pool (es.flatMap Entry.l ++ S.shared.theirs)

theorem runDemux_append (h g : List (Oracle × DemuxOp)) (s : Demuxer) : runDemux s (h ++ g) = runDemux s h >>= fun s => runDemux s g := by
  induction h generalizing s with
  | nil => rfl
  | cons x h ih =>
    obtain ⟨o, e⟩ := x
    simp only [List.cons_append, runDemux]
    cases e.run o s with
    | ok s1 => simp only [ok_bind]; exact ih s1
    | err m => rfl
    | panic => rfl

/-- One more operation of a demuxer that is alone. -/
theorem Alone.step {name : String} {autoFree : Bool} {ops : List DemuxOp} {s : Demuxer} (h : Alone name autoFree ops (.ok s))
    {o : Oracle} (ho : o.Valid ∧ (o.audioType = 0 ∨ o.audioType = packNone)) (e : DemuxOp) : Alone name autoFree (ops ++ [e]) (e.run o s) := by
  obtain ⟨g, h1, h2, h3⟩ := h
  refine ⟨g ++ [(o, e)], by simp [h1], ?_, ?_⟩
  · intro x hx
    rcases List.mem_append.1 hx with hx | hx
    · exact h2 x hx
    · rw [List.mem_singleton] at hx; subst hx; exact ho
  · rw [runDemux_append, h3, ok_bind]
    simp only [runDemux]
    cases e.run o s <;> rfl

theorem ownOps_append (i j : Nat) (H : List (Nat × ObjOracle × DemuxOp)) (o : ObjOracle) (e : DemuxOp) :
    ownOps i (H ++ [(j, o, e)]) = if j = i then ownOps i H ++ [e] else ownOps i H := by
  unfold ownOps
  rw [List.filter_append, List.map_append]
  by_cases h : j = i <;> simp [h]

/-- Every demuxer is as it was, or has made a step. -/
def Onward (es es' : List Entry) : Prop :=
  ∀ (j : Nat) (y : Entry), es'[j]? = some y → ∃ x, es[j]? = some x ∧ (y.s = x.s ∨ ∃ (o : Oracle) (e : DemuxOp), o.Valid ∧ e.run o x.s = .ok y.s)

theorem Onward.refl (es : List Entry) : Onward es es := fun _ y hy => ⟨y, hy, .inl rfl⟩

/-- One demuxer makes a step, the others are the frame. -/
theorem system_step {H : List (Nat × ObjOracle × DemuxOp)} {names : List (String × Bool)} {S : ObjSystem} {es : List Entry}
    (h : SysInv H names S es) (i : Nat) {o : ObjOracle} (ho : o.Valid) (e : DemuxOp) :
    match S.step i o e with
    | .ok S' => ∃ es', SysInv (H ++ [(i, o, e)]) names S' es' ∧ Onward es es'
    | .panic => ∃ n, names[i]? = some n ∧ Alone n.1 n.2 (ownOps i H ++ [e]) .panic
    | .err _ => ∃ n m, names[i]? = some n ∧ Alone n.1 n.2 (ownOps i H ++ [e]) (.err m) := by
  have hlen : S.cores.length = es.length := by rw [h.cores, List.length_map]
  by_cases hi : i < es.length
  · obtain ⟨A, x, B, hes, hA⟩ : ∃ A x B, es = A ++ x :: B ∧ A.length = i :=
      ⟨es.take i, es[i], es.drop (i + 1), by rw [List.cons_getElem_drop_succ, List.take_append_drop], by rw [List.length_take]; omega⟩
    subst hes
    subst hA
    have hx : x.Ok S.shared.pool.objs := h.ok x (by simp)
    have hget : S.cores[A.length]? = some x.core := by rw [h.cores]; simp
    have hn : names[A.length]? = some x.n := by rw [h.names]; simp
    have hal : Alone x.n.1 x.n.2 (ownOps A.length H) (.ok x.s) := h.alone A.length x (by simp)
    let K : Kept := ⟨A.flatMap Entry.l ++ B.flatMap Entry.l, fun q => S.shared.pool.objs[q]?⟩
    have hperm : ∀ (l m : List Nat), (A.flatMap Entry.l ++ (l ++ B.flatMap Entry.l) ++ m).Perm (l ++ [] ++ K.l ++ m) := by
      intro l m
      refine List.Perm.append_right _ ?_
      show (A.flatMap Entry.l ++ (l ++ B.flatMap Entry.l)).Perm (l ++ [] ++ (A.flatMap Entry.l ++ B.flatMap Entry.l))
      rw [List.append_nil, ← List.append_assoc, ← List.append_assoc]
      exact List.Perm.append_right _ List.perm_append_comm
    have hsim : ObjSim K (S.view x.core) x.ts [] [] x.s := by
      refine ⟨hx.base, hx.queues, hx.packets, hx.rows, rfl, fun _ _ => rfl, ?_⟩
      have := h.inv
      rw [List.flatMap_append, List.flatMap_cons] at this
      exact this.perm (hperm _ _)
    obtain ⟨f, t, hf, ht, hag⟩ := step_sim ho hsim e
    have hov : (o.values f t).Valid ∧ ((o.values f t).audioType = 0 ∨ (o.values f t).audioType = packNone) :=
      ⟨ObjOracle.values_valid ho hf t, ht⟩
    have hst := hal.step hov e
    have hstep : S.step A.length o e = (S.view x.core).step o e >>= fun d =>
        ok { cores := S.cores.set A.length { base := d.base, queues := d.queues }, shared := d.shared } := by
      unfold ObjSystem.step
      rw [hget]
      rfl
    rw [hstep]
    cases hd : (S.view x.core).step o e with
    | ok d =>
      rw [hd] at hag
      cases hs : e.run (o.values f t) x.s with
      | ok s1 =>
        rw [hs] at hag hst
        obtain ⟨ts1, h1⟩ := hag
        refine ⟨A ++ ⟨⟨d.base, d.queues⟩, ts1, s1, x.n⟩ :: B, ⟨?_, ?_, ?_, ?_, ?_⟩, ?_⟩
        · show S.cores.set A.length _ = _
          rw [h.cores, List.map_append, List.map_cons, show A.length = (A.map Entry.core).length by simp, set_mid, List.map_append,
            List.map_cons]
        · rw [h.names]; simp
        · intro y hy
          have keep : y ∈ A ∨ y ∈ B → y.Ok d.shared.pool.objs := by
            intro hm
            have hold := h.ok y (by rcases hm with hm | hm <;> simp [hm])
            refine ⟨hold.base, hold.queues, hold.packets, fun r hr => (hold.rows r hr).keep fun p hp => ?_⟩
            refine h1.frame p ?_
            have hpl : p ∈ y.l := List.mem_flatMap.2 ⟨r, hr, hp⟩
            show p ∈ A.flatMap Entry.l ++ B.flatMap Entry.l
            rcases hm with hm | hm
            · exact List.mem_append_left _ (List.mem_flatMap.2 ⟨y, hm, hpl⟩)
            · exact List.mem_append_right _ (List.mem_flatMap.2 ⟨y, hm, hpl⟩)
          rcases List.mem_append.1 hy with hy | hy
          · exact keep (.inl hy)
          · rcases List.mem_cons.1 hy with rfl | hy
            · exact ⟨h1.base, h1.queues, h1.packets, h1.rows⟩
            · exact keep (.inr hy)
        · intro j y hy
          rw [ownOps_append]
          by_cases hj : A.length = j
          · subst hj
            rw [if_pos rfl]
            simp only [List.getElem?_append_right (Nat.le_refl _), Nat.sub_self, List.getElem?_cons_zero, Option.some.injEq] at hy
            subst hy
            exact hst
          · rw [if_neg hj]
            refine h.alone j y ?_
            rw [← hy, show A ++ (⟨⟨d.base, d.queues⟩, ts1, s1, x.n⟩ : Entry) :: B = (A ++ x :: B).set A.length ⟨⟨d.base, d.queues⟩, ts1, s1, x.n⟩ by simp,
              List.getElem?_set_ne hj]
        · show PoolInv d.shared.pool ((A ++ (⟨⟨d.base, d.queues⟩, ts1, s1, x.n⟩ : Entry) :: B).flatMap Entry.l ++ d.shared.theirs)
          rw [List.flatMap_append, List.flatMap_cons]
          exact h1.inv.perm (hperm _ _).symm
        · intro j y hy
          by_cases hj : A.length = j
          · subst hj
            simp only [List.getElem?_append_right (Nat.le_refl _), Nat.sub_self, List.getElem?_cons_zero, Option.some.injEq] at hy
            subst hy
            exact ⟨x, by simp, .inr ⟨_, e, hov.1, hs⟩⟩
          · refine ⟨y, ?_, .inl rfl⟩
            rw [← hy, show A ++ (⟨⟨d.base, d.queues⟩, ts1, s1, x.n⟩ : Entry) :: B = (A ++ x :: B).set A.length ⟨⟨d.base, d.queues⟩, ts1, s1, x.n⟩ by simp,
              List.getElem?_set_ne hj]
      | err m => rw [hs] at hag; exact hag.elim
      | panic => rw [hs] at hag; exact hag.elim
    | err m =>
      rw [hd] at hag
      cases hs : e.run (o.values f t) x.s with
      | ok s1 => rw [hs] at hag; exact hag.elim
      | err m' => rw [hs] at hst; exact ⟨x.n, m', hn, hst⟩
      | panic => rw [hs] at hag; exact hag.elim
    | panic =>
      rw [hd] at hag
      cases hs : e.run (o.values f t) x.s with
      | ok s1 => rw [hs] at hag; exact hag.elim
      | err m' => rw [hs] at hag; exact hag.elim
      | panic => rw [hs] at hst; exact ⟨x.n, hn, hst⟩
  · have hnone : S.cores[i]? = none := List.getElem?_eq_none (by omega)
    have hstep : S.step i o e = ok S := by unfold ObjSystem.step; rw [hnone]
    rw [hstep]
    refine ⟨es, ⟨h.cores, h.names, h.ok, fun j y hy => ?_, h.inv⟩, .refl es⟩
    rw [ownOps_append, if_neg]
    · exact h.alone j y hy
    · rintro rfl
      exact hi (List.getElem?_eq_some_iff.1 hy).1

/-- A history. -/
theorem system_run (names : List (String × Bool)) (H : List (Nat × ObjOracle × DemuxOp)) (hv : ∀ x ∈ H, x.2.1.Valid) :
    ∀ (H0 : List (Nat × ObjOracle × DemuxOp)) (S : ObjSystem) (es : List Entry), SysInv H0 names S es →
    match S.run H with
    | .ok S' => ∃ es', SysInv (H0 ++ H) names S' es'
    | .panic => ∃ H1 i o e H2 n, H0 ++ H = H1 ++ (i, o, e) :: H2 ∧ names[i]? = some n ∧ Alone n.1 n.2 (ownOps i H1 ++ [e]) .panic
    | .err _ => ∃ H1 i o e H2 n m, H0 ++ H = H1 ++ (i, o, e) :: H2 ∧ names[i]? = some n ∧ Alone n.1 n.2 (ownOps i H1 ++ [e]) (.err m) := by
  induction H with
  | nil => intro H0 S es h; exact ⟨es, by simpa using h⟩
  | cons x H ih =>
    obtain ⟨i, o, e⟩ := x
    intro H0 S es h
    have hs := system_step h i (hv (i, o, e) (List.mem_cons_self ..)) e
    simp only [ObjSystem.run]
    cases hS : S.step i o e with
    | ok S' =>
      rw [hS] at hs
      obtain ⟨es', hs, _⟩ := hs
      have := ih (fun y hy => hv y (List.mem_cons_of_mem _ hy)) _ S' es' hs
      rw [List.append_assoc, List.singleton_append] at this
      rw [ok_bind]
      exact this
    | err m =>
      rw [hS] at hs
      obtain ⟨n, m', h1, h2⟩ := hs
      exact ⟨H0, i, o, e, H, n, m', rfl, h1, h2⟩
    | panic =>
      rw [hS] at hs
      obtain ⟨n, h1, h2⟩ := hs
      exact ⟨H0, i, o, e, H, n, rfl, h1, h2⟩

end Avf
