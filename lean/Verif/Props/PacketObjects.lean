import Verif.Lemmas.ObjectCount
import Verif.Props.DemuxerSystem
/-!
# C117: packet objects come back (`av_packet.go`, `demuxer.go`)

C97 says that no packet is in two places. Here: none is nowhere. Every packet object that the pool has ever made is, after any
operation of any demuxer, in the pool, in a queue, or in the hands of others; so the number of objects is the largest number that
was needed at once, and it does not grow when all demuxers have found their tracks.
-/
namespace Avf
open Go PacketPool

theorem ours_new {names : List (String × Bool)} {shared : Shared}
    (h0 : (shared.pool.pool ++ shared.theirs).Perm (List.range shared.pool.objs.length)) :
    (ObjSystem.new names shared).shared.ours = (ObjSystem.new names shared).waiting := by
  have h1 := h0.length_eq
  rw [List.length_append, List.length_range] at h1
  have h2 : (ObjSystem.new names shared).waiting = 0 := by
    unfold ObjSystem.waiting ObjSystem.new
    rw [List.map_map]
    induction names with
    | nil => rfl
    | cons n names ih => rw [List.map_cons, List.sum_cons, ih]; rfl
  rw [h2]
  show shared.ours = _
  unfold Shared.ours PacketPool.out
  push_cast
  omega

/-- **C117**: no packet object gets lost. -/
theorem C117_none_lost (names : List (String × Bool)) (shared : Shared) (hp : PoolRun shared.pool shared.theirs)
    (h0 : (shared.pool.pool ++ shared.theirs).Perm (List.range shared.pool.objs.length)) (H : List (Nat × ObjOracle × DemuxOp))
    (hv : ∀ x ∈ H, x.2.1.Valid) (hl : ∀ x ∈ H, ∀ n, ∀ a ∈ x.2.1.acts n, a.Lasting) {S : ObjSystem}
    (hS : (ObjSystem.new names shared).run H = ok S) : S.NoneLost := by
  have hrun := system_run names H hv [] _ _ (SysInv.new names hp)
  rw [hS] at hrun
  obtain ⟨es, h⟩ := hrun
  have hc := ObjSystem.run_ours H hv hl hS
  have := h.none_lost (by have := ours_new (names := names) h0; omega)
  unfold ObjSystem.NoneLost
  rw [h.queued]
  exact this

/-- What follows from where a run starts, for all of it. -/
theorem peak_run (names : List (String × Bool)) (N : Nat) (H : List (Nat × ObjOracle × DemuxOp)) :
    ∀ {H0 : List (Nat × ObjOracle × DemuxOp)} {S S' : ObjSystem} {es : List Entry}, SysInv H0 names S es → S.shared.ours = S.waiting →
    (∀ x ∈ H, x.2.1.Valid) → (∀ x ∈ H, ∀ n, ∀ a ∈ x.2.1.acts n, a.Lasting ∧ a.MakesNone) → S.Along ObjSystem.Thrifty H →
    S.Along (fun T _ _ => T.inUse ≤ N) H → S.run H = ok S' → S'.shared.pool.objs.length ≤ max S.shared.pool.objs.length (N + 1) := by
  induction H with
  | nil => intro H0 S S' es _ _ _ _ _ _ h; cases h; exact Nat.le_max_left _ _
  | cons x H ih =>
    obtain ⟨i, o, e⟩ := x
    intro H0 S S' es hi hc hv ha ht hn h
    unfold ObjSystem.run at h
    obtain ⟨S1, h1, h⟩ := bind_eq_ok.1 h
    have hv0 := hv _ (List.mem_cons_self ..)
    have hl0 : ∀ n, ∀ a ∈ o.acts n, a.Lasting := fun n a hm => (ha _ (List.mem_cons_self ..) n a hm).1
    have hm0 : ∀ n, ∀ a ∈ o.acts n, a.MakesNone := fun n a hm => (ha _ (List.mem_cons_self ..) n a hm).2
    have hs := system_step hi i hv0 e
    rw [h1] at hs
    obtain ⟨es1, hi1, _⟩ := hs
    have e1 := ObjSystem.step_objs hv0 hl0 hm0 ht.1 hc h1
    have e2 := ObjSystem.step_ours hv0 hl0 h1
    have e3 := ih hi1 (by omega) (fun y hy => hv y (List.mem_cons_of_mem _ hy)) (fun y hy => ha y (List.mem_cons_of_mem _ hy))
      (ht.2 S1 h1) (hn.2 S1 h1) h
    have e4 : S.inUse ≤ N := hn.1
    unfold ObjSystem.inUse at e4
    rw [hi.queued, ← hi.waiting] at e4
    omega

/-- **C117**: if the pool makes a new packet only when it is empty, and others make none, then there are no more objects than were
ever in use at once, and one. -/
theorem C117_peak (names : List (String × Bool)) (shared : Shared) (hp : PoolRun shared.pool shared.theirs)
    (h0 : (shared.pool.pool ++ shared.theirs).Perm (List.range shared.pool.objs.length)) (H : List (Nat × ObjOracle × DemuxOp))
    (hv : ∀ x ∈ H, x.2.1.Valid) (ha : ∀ x ∈ H, ∀ n, ∀ a ∈ x.2.1.acts n, a.Lasting ∧ a.MakesNone)
    (ht : (ObjSystem.new names shared).Along ObjSystem.Thrifty H) {N : Nat}
    (hn : (ObjSystem.new names shared).Along (fun T _ _ => T.inUse ≤ N) H) {S : ObjSystem}
    (hS : (ObjSystem.new names shared).run H = ok S) : S.shared.pool.objs.length ≤ max shared.pool.objs.length (N + 1) :=
  peak_run names N H (SysInv.new names hp) (ours_new h0) hv ha ht hn hS

/-- **C117**: when all demuxers have found their tracks, there is at most one queued packet for each. -/
theorem C117_settled (names : List (String × Bool)) (shared : Shared) (hp : PoolRun shared.pool shared.theirs)
    (H : List (Nat × ObjOracle × DemuxOp)) (hv : ∀ x ∈ H, x.2.1.Valid) {S : ObjSystem} (hS : (ObjSystem.new names shared).run H = ok S)
    (hc : S.AllCompleted) : S.queued.length ≤ S.trackCount := by
  have hrun := system_run names H hv [] _ _ (SysInv.new names hp)
  rw [hS] at hrun
  obtain ⟨es, h⟩ := hrun
  rw [h.queued, ← h.waiting]
  exact h.settled hc

theorem constant_run (names : List (String × Bool)) (H : List (Nat × ObjOracle × DemuxOp)) :
    ∀ {H0 : List (Nat × ObjOracle × DemuxOp)} {S S' : ObjSystem} {es : List Entry}, SysInv H0 names S es → S.shared.ours = S.waiting →
    S.AllCompleted → (∀ c ∈ S.cores, c.base.autoFree = true) →
    (∀ x ∈ H, x.2.1.Valid) → (∀ x ∈ H, ∀ n, ∀ a ∈ x.2.1.acts n, a.Lasting ∧ a.MakesNone) → S.Along ObjSystem.Thrifty H →
    S.run H = ok S' → S'.shared.pool.objs.length ≤ max S.shared.pool.objs.length (S.trackCount + S.shared.theirs.length + 1) := by
  induction H with
  | nil => intro H0 S S' es _ _ _ _ _ _ _ h; cases h; exact Nat.le_max_left _ _
  | cons x H ih =>
    obtain ⟨i, o, e⟩ := x
    intro H0 S S' es hi hc hd hf hv ha ht h
    unfold ObjSystem.run at h
    obtain ⟨S1, h1, h⟩ := bind_eq_ok.1 h
    have hv0 := hv _ (List.mem_cons_self ..)
    have hl0 : ∀ n, ∀ a ∈ o.acts n, a.Lasting := fun n a hm => (ha _ (List.mem_cons_self ..) n a hm).1
    have hm0 : ∀ n, ∀ a ∈ o.acts n, a.MakesNone := fun n a hm => (ha _ (List.mem_cons_self ..) n a hm).2
    have hs := system_step hi i hv0 e
    rw [h1] at hs
    obtain ⟨es1, hi1, hon⟩ := hs
    have e1 := ObjSystem.step_objs hv0 hl0 hm0 ht.1 hc h1
    have e2 := ObjSystem.step_ours hv0 hl0 h1
    obtain ⟨e5, hf1⟩ := ObjSystem.step_theirs hv0 hm0 hf h1
    obtain ⟨hd1, e6⟩ := hi.frozen hi1 hon hd
    have e3 := ih hi1 (by omega) hd1 hf1 (fun y hy => hv y (List.mem_cons_of_mem _ hy)) (fun y hy => ha y (List.mem_cons_of_mem _ hy))
      (ht.2 S1 h1) h
    have e4 := hi.settled hd
    omega

/-- **C117**: from the moment on at which all demuxers have found their tracks, with `AutoFree`, the number of packet objects has a
bound that does not depend on how much is read. -/
theorem C117_constant (names : List (String × Bool)) (hf : ∀ n ∈ names, n.2 = true) (shared : Shared)
    (hp : PoolRun shared.pool shared.theirs) (h0 : (shared.pool.pool ++ shared.theirs).Perm (List.range shared.pool.objs.length))
    (H1 H2 : List (Nat × ObjOracle × DemuxOp)) (hv : ∀ x ∈ H1 ++ H2, x.2.1.Valid)
    (ha : ∀ x ∈ H1 ++ H2, ∀ n, ∀ a ∈ x.2.1.acts n, a.Lasting ∧ a.MakesNone) {S1 S2 : ObjSystem}
    (hS1 : (ObjSystem.new names shared).run H1 = ok S1) (hc : S1.AllCompleted) (ht : S1.Along ObjSystem.Thrifty H2)
    (hS2 : S1.run H2 = ok S2) :
    S2.shared.pool.objs.length ≤ max S1.shared.pool.objs.length (S1.trackCount + shared.theirs.length + 1) := by
  have hv1 : ∀ x ∈ H1, x.2.1.Valid := fun x hx => hv x (List.mem_append_left _ hx)
  have ha1 := fun x (hx : x ∈ H1) => ha x (List.mem_append_left _ hx)
  have hrun := system_run names H1 hv1 [] _ _ (SysInv.new names hp)
  rw [hS1] at hrun
  obtain ⟨es, h⟩ := hrun
  have e1 := ObjSystem.run_ours H1 hv1 (fun x hx n a hm => (ha1 x hx n a hm).1) hS1
  have e2 := ours_new (names := names) h0
  have key : ∀ (H : List (Nat × ObjOracle × DemuxOp)) {S S' : ObjSystem}, (∀ c ∈ S.cores, c.base.autoFree = true) → (∀ x ∈ H, x.2.1.Valid) →
      (∀ x ∈ H, ∀ n, ∀ a ∈ x.2.1.acts n, a.Lasting ∧ a.MakesNone) → S.run H = ok S' →
      S'.shared.theirs.length ≤ S.shared.theirs.length ∧ ∀ c ∈ S'.cores, c.base.autoFree = true := by
    intro H
    induction H with
    | nil => intro S S' h1 _ _ h; cases h; exact ⟨Nat.le_refl _, h1⟩
    | cons x H ih =>
      obtain ⟨i, o, e⟩ := x
      intro S S' h1 hv ha h
      unfold ObjSystem.run at h
      obtain ⟨S3, h3, h⟩ := bind_eq_ok.1 h
      obtain ⟨a, b⟩ := ObjSystem.step_theirs (hv _ (List.mem_cons_self ..)) (fun n a hm => (ha _ (List.mem_cons_self ..) n a hm).2) h1 h3
      obtain ⟨c, d⟩ := ih b (fun y hy => hv y (List.mem_cons_of_mem _ hy)) (fun y hy => ha y (List.mem_cons_of_mem _ hy)) h
      exact ⟨c.trans a, d⟩
  obtain ⟨e3, hf1⟩ := key H1 (S := ObjSystem.new names shared) (by
    intro c hc
    obtain ⟨n, hn, rfl⟩ := List.mem_map.1 hc
    exact hf n hn) hv1 ha1 hS1
  have e4 := constant_run names H2 h (by omega) hc hf1 (fun x hx => hv x (List.mem_append_right _ hx))
    (fun x hx => ha x (List.mem_append_right _ hx)) ht hS2
  have e5 : (ObjSystem.new names shared).shared.theirs.length = shared.theirs.length := rfl
  omega

/-! ## A run -/

/-- Number of objects; which are in the pool, in queues, in the hands of others; which demuxers have found their tracks. -/
def ObjSystem.places (S : ObjSystem) : Nat × List Nat × List Nat × List Nat × List Bool :=
  (S.shared.pool.objs.length, S.shared.pool.pool, S.queued, S.shared.theirs, S.cores.map fun c => c.base.completed)

/-- Two demuxers with one track each need three objects: one waits in each queue, and one is new. When both have found their
tracks (after four operations) there are three, and there are never more: the bound of `C117_constant` is `1 + 1 + 0 + 1`. -/
example : ObjSystem.places <$> (ObjSystem.new [("ps", true), ("ps", true)] {}).run (systemRun.take 4) =
      ok (3, [1], [2, 0], [], [true, true]) ∧
    ObjSystem.places <$> (ObjSystem.new [("ps", true), ("ps", true)] {}).run systemRun = ok (3, [0], [1, 2], [], [true, true]) := by
  constructor <;> decide +kernel

/-- Without `AutoFree` the handler has what it was given. -/
example : ObjSystem.places <$> (ObjSystem.new [("ps", false), ("ps", true)] {}).run systemRun = ok (5, [3], [1, 4], [2, 0], [true, true]) := by
  decide +kernel

theorem along_first (H : List (Nat × ObjOracle × DemuxOp)) : ∀ (S : ObjSystem), (∀ x ∈ H, x.2.1.pick = some 0) → S.Along ObjSystem.Thrifty H := by
  induction H with
  | nil => intros; trivial
  | cons x H ih =>
    obtain ⟨i, o, e⟩ := x
    intro S h
    exact ⟨fun hne => ⟨0, List.length_pos_iff.2 hne, h _ (List.mem_cons_self ..)⟩,
      fun S' _ => ih S' fun y hy => h y (List.mem_cons_of_mem _ hy)⟩

/-- The hypotheses of `C117_constant`. -/
example : (({} : Shared).pool.pool ++ ({} : Shared).theirs).Perm (List.range ({} : Shared).pool.objs.length) ∧
    (∀ x ∈ systemRun, x.2.1.Valid ∧ x.2.1.pick = some 0 ∧ ∀ n, ∀ a ∈ x.2.1.acts n, a.Lasting ∧ a.MakesNone) := by
  refine ⟨.refl _, fun x hx => ?_⟩
  have : x.2.1 = exObj fun _ => [] := by
    simp only [systemRun, List.mem_cons, List.not_mem_nil, or_false] at hx
    rcases hx with rfl | rfl | rfl | rfl | rfl | rfl <;> rfl
  rw [this]
  exact ⟨⟨exObj_choices _, by simp [exObj]⟩, rfl, by simp [exObj]⟩

/-! ## Why the hypotheses are needed -/

/-- `sync.Pool` may make a new packet although it has some: then there is an object for every packet. -/
theorem C117_wasteful : ObjSystem.places <$> (ObjSystem.new [("ps", true), ("ps", true)] {}).run
      (systemRun.map fun x => (x.1, { x.2.1 with pick := none }, x.2.2)) = ok (6, [0, 1, 2, 3], [4, 5], [], [true, true]) := by
  decide +kernel

/-- What the garbage collector takes from the pool is gone: packets 0, 1 and 2. -/
theorem C117_collected : ObjSystem.places <$> (ObjSystem.new [("ps", true), ("ps", true)] {}).run
      (systemRun.map fun x => (x.1, exObj fun _ => [.collect fun _ => false], x.2.2)) = ok (6, [3], [4, 5], [], [true, true]) := by
  decide +kernel

/-- A packet that is freed twice is in two places: packet 0 is in the pool and in a queue. -/
theorem C117_rogue_handler : ObjSystem.places <$> (ObjSystem.new [("ps", true), ("ps", true)] {}).run rogueSystemRun =
    ok (3, [2, 0], [0, 1], [], [true, true]) := by
  decide +kernel

end Avf
