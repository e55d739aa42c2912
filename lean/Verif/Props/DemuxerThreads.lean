import Verif.Lemmas.DemuxerThreads
import Verif.Props.DemuxerTotal
/-!
# C121: demuxers in different goroutines (`demuxer.go`, `av_packet.go`)

All demuxers of a program take their packets from one global pool. Any number of goroutines, each with a demuxer of its own, take turns
after every single access to the pool or to a packet, in any order. Handlers may pass packets on to other goroutines.
-/
namespace Avf
open Go PacketPool
namespace Threads

/-- What a goroutine must have done when it is done. -/
def Ended (w : Work) (h : Heap) (r : Go TDemuxer) : Prop :=
  ∃ hist : List (Oracle × DemuxOp), hist.map Prod.snd = w.ops.map Prod.snd ∧
    (∀ x ∈ hist, x.1.Valid ∧ (x.1.audioType = 0 ∨ x.1.audioType = packNone)) ∧
    Out [] [] h r (runDemux (Demuxer.new w.name w.autoFree) hist)

theorem start_sound {pool : PacketPool} {theirs : List Nat} (hp : PoolRun pool theirs) (ws : List Work)
    (hv : ∀ w ∈ ws, ∀ x ∈ w.ops, x.1.Valid) :
    Sound ⟨pool, ws.map Work.prog, []⟩ (fun _ _ => none) fun i h r => ∀ w, ws[i]? = some w → Ended w h r := by
  have hi := hp.inv
  refine ⟨fun i t ht => ?_, by simp, fun i j p _ hn => absurd rfl hn, hi.pool, fun p hm => ⟨hi.blank p hm, fun _ => rfl⟩,
    by simp, List.nodup_nil⟩
  rw [show (⟨pool, ws.map Work.prog, []⟩ : Machine TDemuxer).threads = ws.map Work.prog from rfl, List.getElem?_map] at ht
  cases hw : ws[i]? with
  | none => rw [hw] at ht; cases ht
  | some w =>
    rw [hw] at ht
    simp only [Option.map_some, Option.some.injEq] at ht
    subst ht
    have := run_safe w.history (h := fun _ => none) (d := TDemuxer.new w.name w.autoFree) (s := Demuxer.new w.name w.autoFree)
      (hv w (List.mem_of_getElem? hw)) ⟨rfl, rfl, rfl, by simp [TDemuxer.new], by simp [TDemuxer.new], fun p hn => absurd rfl hn⟩
    refine this.mono _ fun h' r hr w' hw' => ?_
    obtain rfl : w = w' := Option.some.inj hw'
    exact hr

/-- **C121** there are no data races: whatever the order in which goroutines take turns, no two of them are ever about to access the
same packet, and none is about to access a packet that is in the pool. -/
theorem C121_race_free (pool : PacketPool) (theirs : List Nat) (hp : PoolRun pool theirs) (ws : List Work)
    (hv : ∀ w ∈ ws, ∀ x ∈ w.ops, x.1.Valid) (m : Machine TDemuxer) (hm : Machine.Steps ⟨pool, ws.map Work.prog, []⟩ m) : m.RaceFree := by
  obtain ⟨hs, h⟩ := (start_sound hp ws hv).steps hm
  exact h.raceFree

/-- **C121** goroutines do not notice each other: one that is done has done what a demuxer with packet values does with the same
operations, alone. It made the same calls with the same packets, has the same tracks, and the same packets in its queues, and it
panicked only if that demuxer panics. No packet that it has is in the pool or on its way to another. -/
theorem C121_same (pool : PacketPool) (theirs : List Nat) (hp : PoolRun pool theirs) (ws : List Work)
    (hv : ∀ w ∈ ws, ∀ x ∈ w.ops, x.1.Valid) (m : Machine TDemuxer) (hm : Machine.Steps ⟨pool, ws.map Work.prog, []⟩ m)
    (i : Nat) (w : Work) (hw : ws[i]? = some w) (r : Go TDemuxer) (hr : m.threads[i]? = some (.stop r)) :
    (∃ hist : List (Oracle × DemuxOp), hist.map Prod.snd = w.ops.map Prod.snd ∧
      (∀ x ∈ hist, x.1.Valid ∧ (x.1.audioType = 0 ∨ x.1.audioType = packNone)) ∧
      SameEnd m.pool.objs r (runDemux (Demuxer.new w.name w.autoFree) hist)) ∧
    ∀ d, r = ok d → ∀ p ∈ d.queues.flatten ++ d.kept, p ∉ m.pool.pool ∧ p ∉ m.mail := by
  obtain ⟨hs, h⟩ := (start_sound hp ws hv).steps hm
  obtain ⟨hist, h1, h2, h3⟩ := h.safe i _ hr w hw
  refine ⟨⟨hist, h1, h2, ?_⟩, ?_⟩
  · cases r <;> cases hd : runDemux (Demuxer.new w.name w.autoFree) hist <;> rw [hd] at h3
    case ok.ok d s =>
      refine ⟨h3.base, ?_, by have := h3.distinct; simpa using this⟩
      rw [← h3.queues]
      refine List.map_congr_left fun q hq => List.map_congr_left fun p hp => ?_
      have hm : q.map (hs i) ∈ s.packets.map (·.map some) := by rw [← h3.queues]; exact List.mem_map.2 ⟨q, hq, rfl⟩
      obtain ⟨v, _, e⟩ := List.mem_map.1 hm
      have : hs i p ∈ v.map some := by rw [e]; exact List.mem_map.2 ⟨p, hp, rfl⟩
      obtain ⟨x, _, hx⟩ := List.mem_map.1 this
      rw [← hx]
      exact h.agree _ _ _ hx.symm
    all_goals exact h3
  · rintro d rfl p hp
    suffices hn : hs i p ≠ none by
      refine ⟨fun hmem => hn ((h.blank p hmem).2 i), fun hmem => (h.mail p).2 hmem (h.apart i _ p ?_ hn)⟩
      have := (List.getElem?_eq_some_iff.1 hr).1
      omega
    intro hn
    cases hd : runDemux (Demuxer.new w.name w.autoFree) hist <;> rw [hd] at h3
    case ok s =>
      rcases List.mem_append.1 hp with hp | hp
      · obtain ⟨q, hq, hpq⟩ := List.mem_flatten.1 hp
        have hm : q.map (hs i) ∈ s.packets.map (·.map some) := by rw [← h3.queues]; exact List.mem_map.2 ⟨q, hq, rfl⟩
        obtain ⟨v, _, e⟩ := List.mem_map.1 hm
        have : hs i p ∈ v.map some := by rw [e]; exact List.mem_map.2 ⟨p, hpq, rfl⟩
        rw [hn] at this
        simp at this
      · obtain ⟨x, hx⟩ := h3.kept p hp
        rw [hn] at hx; cases hx
    all_goals exact h3.elim

/-- **C121** what two goroutines have at their end is different. -/
theorem C121_apart (pool : PacketPool) (theirs : List Nat) (hp : PoolRun pool theirs) (ws : List Work)
    (hv : ∀ w ∈ ws, ∀ x ∈ w.ops, x.1.Valid) (m : Machine TDemuxer) (hm : Machine.Steps ⟨pool, ws.map Work.prog, []⟩ m)
    (i j : Nat) (hij : i ≠ j) (d e : TDemuxer) (hd : m.threads[i]? = some (.stop (ok d))) (he : m.threads[j]? = some (.stop (ok e))) :
    ∀ p ∈ d.queues.flatten ++ d.kept, p ∉ e.queues.flatten ++ e.kept := by
  have hlen : m.threads.length = ws.length := by
    have : ∀ {a b : Machine TDemuxer}, a.Steps b → b.threads.length = a.threads.length := by
      intro a b h
      induction h with
      | refl => rfl
      | step b c _ hs ih =>
        rw [← ih]
        cases hs with
        | act _ ha => cases ha <;> simp
        | collect => rfl
    simpa using this hm
  obtain ⟨hs, h⟩ := (start_sound hp ws hv).steps hm
  have own : ∀ k (f : TDemuxer), m.threads[k]? = some (.stop (ok f)) → ∀ p ∈ f.queues.flatten ++ f.kept, ∃ x, hs k p = some x := by
    intro k f hk p hp
    have hkl : k < ws.length := by rw [← hlen]; exact (List.getElem?_eq_some_iff.1 hk).1
    obtain ⟨hist, h1, h2, h3⟩ := h.safe k _ hk ws[k] (List.getElem?_eq_getElem hkl)
    cases hd : runDemux (Demuxer.new ws[k].name ws[k].autoFree) hist <;> rw [hd] at h3
    case ok s =>
      rcases List.mem_append.1 hp with hp | hp
      · obtain ⟨q, hq, hpq⟩ := List.mem_flatten.1 hp
        have hm : q.map (hs k) ∈ s.packets.map (·.map some) := by rw [← h3.queues]; exact List.mem_map.2 ⟨q, hq, rfl⟩
        obtain ⟨v, _, e⟩ := List.mem_map.1 hm
        have : hs k p ∈ v.map some := by rw [e]; exact List.mem_map.2 ⟨p, hpq, rfl⟩
        obtain ⟨x, _, hx⟩ := List.mem_map.1 this
        exact ⟨x, hx.symm⟩
      · exact h3.kept p hp
    all_goals exact h3.elim
  intro p h1 h2
  obtain ⟨x, hx⟩ := own i d hd p h1
  obtain ⟨y, hy⟩ := own j e he p h2
  rw [h.apart i j p hij (by rw [hx]; simp)] at hy
  cases hy

/-- **C121** no packet gets lost: of the packets that were in the pool, and of those that were made since, each is in the pool, on its
way between goroutines, or some goroutine has it; and what a goroutine has when it is done without a panic is in its queues or was kept by its handler. (The garbage
collector may drop packets of the pool; this is about the steps between two of its runs.) -/
theorem C121_returned (pool : PacketPool) (theirs : List Nat) (hp : PoolRun pool theirs) (ws : List Work)
    (hv : ∀ w ∈ ws, ∀ x ∈ w.ops, x.1.Valid) (m : Machine TDemuxer) (hm : Machine.Acts ⟨pool, ws.map Work.prog, []⟩ m)
    (p : Nat) (hn : (pool.objs.length ≤ p ∧ p < m.pool.objs.length) ∨ p ∈ pool.pool) :
    p ∈ m.pool.pool ∨ p ∈ m.mail ∨ ∃ (i : Nat) (t : Prog TDemuxer), m.threads[i]? = some t ∧ ∀ d, t = .stop (ok d) → p ∈ d.queues.flatten ++ d.kept := by
  obtain ⟨hs, h, hc⟩ := (start_sound hp ws hv).acts hm
  have hlen : m.threads.length = ws.length := by
    have : ∀ {a b : Machine TDemuxer}, a.Acts b → b.threads.length = a.threads.length := by
      intro a b h
      induction h with
      | refl => rfl
      | step b c _ ha ih => rw [← ih]; cases ha <;> simp
    simpa using this hm
  have h0 : Covered ⟨pool, ws.map Work.prog, []⟩ (fun _ _ => none) pool.objs.length pool.pool := by
    rintro q (⟨h1, h2⟩ | h1)
    · exact absurd h2 (by simpa using h1)
    · exact Or.inl h1
  refine (hc _ _ h0 p hn).imp_right fun ⟨i, hi, hx⟩ => ?_
  by_cases hil : i = m.threads.length
  · subst hil
    exact Or.inl ((h.mail p).1 hx)
  replace hi : i < m.threads.length := by omega
  refine Or.inr ⟨i, m.threads[i], List.getElem?_eq_getElem hi, ?_⟩
  intro d hd
  have ht : m.threads[i]? = some (.stop (ok d)) := by rw [List.getElem?_eq_getElem hi, hd]
  obtain ⟨hist, h1, h2, h3⟩ := h.safe i _ ht ws[i] (List.getElem?_eq_getElem (by omega))
  cases hd : runDemux (Demuxer.new ws[i].name ws[i].autoFree) hist <;> rw [hd] at h3
  case ok s =>
    have := h3.dom p hx
    simpa using this
  all_goals exact h3.elim

/-- **C121** no goroutine waits for another: whatever has happened, each can go on by itself until it is done. -/
theorem C121_finishes (pool : PacketPool) (theirs : List Nat) (hp : PoolRun pool theirs) (ws : List Work)
    (hv : ∀ w ∈ ws, ∀ x ∈ w.ops, x.1.Valid) (m : Machine TDemuxer) (hm : Machine.Steps ⟨pool, ws.map Work.prog, []⟩ m)
    (i : Nat) (t : Prog TDemuxer) (ht : m.threads[i]? = some t) : ∃ m' r, m.Steps m' ∧ m'.threads[i]? = some (.stop r) := by
  obtain ⟨hs, h⟩ := (start_sound hp ws hv).steps hm
  exact h.finish i t ht

/-- **C121** what holds of the calls of all demuxers with packet values holds of the calls of every demuxer in a goroutine. -/
theorem C121_transfer (P : List Call → Prop) (pool : PacketPool) (theirs : List Nat) (hp : PoolRun pool theirs) (ws : List Work)
    (hv : ∀ w ∈ ws, ∀ x ∈ w.ops, x.1.Valid) (m : Machine TDemuxer) (hm : Machine.Steps ⟨pool, ws.map Work.prog, []⟩ m)
    (i : Nat) (w : Work) (hw : ws[i]? = some w) (hP : ∀ h s, Reached w.name w.autoFree h s → P s.calls) (d : TDemuxer)
    (hd : m.threads[i]? = some (.stop (ok d))) : P d.base.calls := by
  obtain ⟨⟨hist, _, h2, h3⟩, _⟩ := C121_same pool theirs hp ws hv m hm i w hw _ hd
  cases hs : runDemux (Demuxer.new w.name w.autoFree) hist with
  | ok s =>
    rw [hs] at h3
    have hc : s.calls = d.base.calls := by
      have := h3.1
      generalize s.packets = Q at this
      subst this; rfl
    rw [← hc]
    exact hP hist s ⟨fun x hx => (h2 x hx).1, hs⟩
  | err m => rw [hs] at h3; exact h3.elim
  | panic => rw [hs] at h3; exact h3.elim

/-! ## A run of two goroutines -/

/-- A schedule: who is next, and whether the pool gives a packet that it has. Packets that were passed on are taken in their order. -/
def _root_.Avf.Machine.exec {α : Type} (m : Machine α) : List (Nat × Bool) → Machine α
  | [] => m
  | (i, b) :: rest =>
    (match m.threads[i]? with
      | some (.get k) =>
        match b, m.pool.pool with
        | true, p :: ps => ⟨{ m.pool with pool := ps }, m.threads.set i (k p), m.mail⟩
        | _, _ => ⟨{ m.pool with objs := m.pool.objs ++ [{}] }, m.threads.set i (k m.pool.objs.length), m.mail⟩
      | some (.put p k) => ⟨{ m.pool with pool := m.pool.pool ++ [p] }, m.threads.set i k, m.mail⟩
      | some (.load p k) =>
        match m.pool.objs[p]? with
        | some x => ⟨m.pool, m.threads.set i (k x), m.mail⟩
        | none => m
      | some (.store p f k) =>
        match m.pool.objs[p]? with
        | some _ => ⟨m.pool.modify p f, m.threads.set i k, m.mail⟩
        | none => m
      | some (.send p k) => ⟨m.pool, m.threads.set i k, m.mail ++ [p]⟩
      | some (.recv k) =>
        match m.mail with
        | p :: ps => ⟨m.pool, m.threads.set i (k (some p)), ps⟩
        | [] => ⟨m.pool, m.threads.set i (k none), []⟩
      | _ => m : Machine α).exec rest

theorem exec_acts {α : Type} (l : List (Nat × Bool)) : ∀ {a m : Machine α}, a.Acts m → a.Acts (m.exec l) := by
  induction l with
  | nil => intro a m h; exact h
  | cons x l ih =>
    intro a m h
    obtain ⟨i, b⟩ := x
    unfold Machine.exec
    refine ih ?_
    split
    · next k hk =>
      split
      · next p ps hp =>
        have := Machine.Act.reuse m i p k hk (by rw [hp]; exact List.mem_cons_self ..)
        rw [hp, List.erase_cons_head] at this
        exact .step _ _ _ h this
      · exact .step _ _ _ h (.make m i k hk)
    · next p k hk => exact .step _ _ _ h (.put m i p k hk)
    · next p k hk =>
      split
      · next x hx => exact .step _ _ _ h (.load m i p k x hk hx)
      · exact h
    · next p f k hk =>
      split
      · next x hx => exact .step _ _ _ h (.store m i p f k x hk hx)
      · exact h
    · next p k hk => exact .step _ _ _ h (.send m i p k hk)
    · next k hk =>
      split
      · next p ps hp =>
        have := Machine.Act.recv m i p k hk (by rw [hp]; exact List.mem_cons_self ..)
        rw [hp, List.erase_cons_head] at this
        exact .step _ _ _ h this
      · next hp =>
        have := Machine.Act.nothing m i k hk
        rw [hp] at this
        exact .step _ _ _ h this
    · exact h

theorem _root_.Avf.Machine.Acts.steps {α : Type} {a b : Machine α} (h : a.Acts b) : a.Steps b := by
  induction h with
  | refl => exact .refl _
  | step b c _ ha ih => exact .step _ _ _ ih (.act _ _ ha)

theorem exec_steps {α : Type} (l : List (Nat × Bool)) {a : Machine α} : a.Steps (a.exec l) := (exec_acts l (.refl _)).steps

/-- Positions in the order of time. -/
def exPositions (xs : List AVPacket) : List Nat :=
  (List.range xs.length).insertionSort fun a b => (xs[a]?.map AVPacket.dts).getD 0 ≤ (xs[b]?.map AVPacket.dts).getD 0

/-- A handler that makes a packet of its own when it gets its first packet, writes to one later and passes it on, and spoils what it is
lent. -/
def exThread : TOracle :=
  { exOracle with
    positions := exPositions
    acts := fun n => if n = 4 then [.make [fun x => { x with dts := 7 }]] else if n = 8 then [.use 0 fun x => { x with dts := 77 }, .send 0] else []
    touch := fun _ x => { x with data := [], dts := -1 } }

theorem exThread_valid : exThread.Valid := by
  have ht : ∀ xs : List AVPacket, Std.Total fun a b : Nat => (xs[a]?.map AVPacket.dts).getD 0 ≤ (xs[b]?.map AVPacket.dts).getD 0 :=
    fun xs => ⟨fun a b => Int.le_total _ _⟩
  have hr : ∀ xs : List AVPacket, IsTrans Nat fun a b : Nat => (xs[a]?.map AVPacket.dts).getD 0 ≤ (xs[b]?.map AVPacket.dts).getD 0 :=
    fun xs => ⟨fun a b c => Int.le_trans⟩
  refine ⟨exOracle_valid.order, fun xs => List.perm_insertionSort _ _, fun xs => ?_, exOracle_valid.index, exOracle_valid.buffer,
    fun _ _ => rfl⟩
  have := ht xs
  have := hr xs
  have hs := List.pairwise_insertionSort (fun a b : Nat => (xs[a]?.map AVPacket.dts).getD 0 ≤ (xs[b]?.map AVPacket.dts).getD 0)
    (List.range xs.length)
  refine List.Pairwise.filterMap (S := fun a b : AVPacket => ¬ b.dts < a.dts) _ ?_ hs
  intro a b hab x hx y hy
  have hx : xs[a]? = some x := hx
  have hy : xs[b]? = some y := hy
  rw [hx, hy] at hab
  simpa using hab

/-- Packets of one track, 200 ms, 100 ms and 50 ms apart. -/
def exWork (autoFree : Bool) (n : Byte) : Work :=
  ⟨"ps", autoFree, [.inl (exThread, .audioPacket 0 codecPCMS16LE [n, 1] 0), .inl (exThread, .audioPacket 0 codecPCMS16LE [n, 2] 18000),
    .inl (exThread, .audioPacket 0 codecPCMS16LE [n, 3] 27000), .inl (exThread, .audioPacket 0 codecPCMS16LE [n, 4] 31500), .inr (.send 1)]⟩

/-- A third goroutine takes packets that the others pass on; it frees the first. -/
def exWorks : List Work := [exWork true 1, exWork false 2, ⟨"", false, [.inr .recv, .inr .recv, .inr (.free 1)]⟩]

theorem exWork_valid : ∀ w ∈ exWorks, ∀ x ∈ w.ops, x.1.Valid := by
  intro w hw x hx
  simp only [exWorks, List.mem_cons, List.not_mem_nil, or_false] at hw
  rcases hw with rfl | rfl | rfl
  · simp only [exWork, Work.ops, opsOf, List.filterMap_cons, List.filterMap_nil, List.mem_cons, List.not_mem_nil, or_false] at hx
    rcases hx with rfl | rfl | rfl | rfl <;> exact exThread_valid
  · simp only [exWork, Work.ops, opsOf, List.filterMap_cons, List.filterMap_nil, List.mem_cons, List.not_mem_nil, or_false] at hx
    rcases hx with rfl | rfl | rfl | rfl <;> exact exThread_valid
  · simp [Work.ops, opsOf] at hx

/-- Two take turns, after every access; then the third runs. -/
def exMachine : Machine TDemuxer := (⟨{}, exWorks.map Work.prog, []⟩ : Machine TDemuxer).exec ((List.range 400).map (fun n => (n % 2, true)) ++ (List.range 40).map fun _ => (2, true))

theorem exMachine_steps : Machine.Steps ⟨{}, exWorks.map Work.prog, []⟩ exMachine := exec_steps _

example : exMachine.RaceFree := C121_race_free {} [] .init _ exWork_valid _ exMachine_steps

/-- What one sees of a goroutine that is done: queues, packets of the handler, payloads and durations of the delivered packets. -/
structure ThreadLook where
  queues : List (List Nat)
  kept : List Nat
  payload : List Bytes
  durations : List Int
deriving DecidableEq

def lookProg : Prog TDemuxer → Option ThreadLook
  | .stop (.ok d) => some ⟨d.queues, d.kept, (delivered d.base.calls).map AVPacket.data, (delivered d.base.calls).map AVPacket.duration⟩
  | _ => none

example : exMachine.threads.map lookProg =
    [some ⟨[[2]], [], [[1, 1], [1, 2], [1, 3]], [18000, 9000, 4500]⟩,
     some ⟨[[7]], [3, 1], [[2, 1], [2, 2], [2, 3]], [18000, 9000, 4500]⟩, some ⟨[], [4], [], []⟩] := by decide +kernel

/-- Eight packets were made: two are back in the pool, one is on its way. -/
example : exMachine.pool.objs.length = 8 ∧ exMachine.pool.pool = [0, 6] ∧ exMachine.mail = [5] := by decide +kernel

example : (∀ p < 8, p ∈ exMachine.pool.pool ∨ p ∈ exMachine.mail ∨ ∃ (i : Nat) (t : Prog TDemuxer), exMachine.threads[i]? = some t ∧ ∀ d, t = .stop (ok d) → p ∈ d.queues.flatten ++ d.kept) := by
  intro p hp
  refine C121_returned {} [] .init _ exWork_valid exMachine (exec_acts _ (.refl _)) p (Or.inl ⟨Nat.zero_le _, ?_⟩)
  have : exMachine.pool.objs.length = 8 := by decide +kernel
  omega

/-- A goroutine that writes to a packet after it has freed it. -/
def badProg : Prog Unit := .get fun p => .put p (.store p (fun x => { x with dts := 1 }) (.stop (.ok ())))

/-- With that one there are data races: here two goroutines are about to write to the same packet. -/
example : ¬ ∀ m : Machine Unit, Machine.Steps ⟨{}, [badProg, badProg], []⟩ m → m.RaceFree := by
  intro h
  have h1 := h _ (exec_steps [(0, true), (0, true), (1, true), (1, true)])
  exact h1.apart 0 1 _ _ 0 0 (by decide) rfl rfl rfl rfl rfl

end Threads
end Avf
