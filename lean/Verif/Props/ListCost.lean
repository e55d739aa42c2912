import Verif.Lemmas.ListCost
import Verif.Props.DemuxerObjects
import Verif.Props.ProbeTime
/-!
# C110: what a packet costs (`demuxer.go`, `collections/linked_list.go`)

The queues are linked lists and are read by index. Steps are counted: following a `next` pointer is one step.
-/
namespace Avf
open Go

/-- **C110**: counting does not change what `Get` returns. -/
theorem C110_get_erased {α : Type} (l : LList α) (index : Int) : (l.getCount index >>= fun x => ok x.1) = l.get index :=
  LList.getCount_erase l index

/-- **C110**: counting does not change what `Remove` does. -/
theorem C110_remove_erased {α : Type} (l : LList α) (index : Int) : (l.removeCount index >>= fun x => ok x.1) = l.remove index :=
  LList.removeCount_erase l index

/-- **C110**: in every list that calls of `Add` and `Remove` can make, reaching the element `k` costs `k` steps. -/
theorem C110_lookup {α : Type} {l : LList α} {xs : List α} (h : LList.LRel l xs) {k : Nat} (hk : k < xs.length) :
    l.getCount k = ok (xs[k], k) ∧ ∃ l', l.removeCount k = ok ((xs[k], l'), k) ∧ LList.LRel l' (xs.eraseIdx k) :=
  ⟨h.getCount hk, h.removeCount hk⟩

/-- A demuxer with packet objects and the demuxer with packet values that it is. -/
theorem reached_objects {name : String} {a : Bool} {shared : Shared} (hp : PoolRun shared.pool shared.theirs)
    {H : List (ObjOracle × DemuxOp)} (hv : ∀ x ∈ H, x.1.Valid) {d : ObjDemuxer} (hd : (ObjDemuxer.new name a shared).run H = ok d) :
    ∃ h s, h.map Prod.snd = H.map Prod.snd ∧ Reached name a h s ∧ d.base.completed = s.completed ∧ d.base.calls = s.calls ∧
      d.queues.length = s.packets.length ∧
      ∀ i : Nat, ∀ q, s.packets[i]? = some q → ∃ l xs, d.queues[i]? = some l ∧ LList.LRel l xs ∧ xs.length = q.length := by
  have h0 : ObjSim ⟨[], fun _ => none⟩ (ObjDemuxer.new name a shared) [] [] [] (Demuxer.new name a) :=
    ⟨rfl, rfl, rfl, by simp, rfl, by simp, hp.inv⟩
  obtain ⟨h, h1, h2, h3⟩ := run_sim H hv h0
  rw [hd] at h3
  cases hs : runDemux (Demuxer.new name a) h with
  | err m => rw [hs] at h3; exact h3.elim
  | panic => rw [hs] at h3; exact h3.elim
  | ok s =>
    rw [hs] at h3
    obtain ⟨ts, h3⟩ := h3
    refine ⟨h, s, h1, ⟨fun x hx => (h2 x hx).1, hs⟩, h3.fields.2.2.2.2.1.symm, h3.fields.2.2.2.2.2.2.2.symm, ?_, ?_⟩
    · rw [h3.queues, h3.packets, List.length_map, List.length_map]
    · intro i q hq
      rw [h3.packets, List.getElem?_map, Option.map_eq_some_iff] at hq
      obtain ⟨t, ht, rfl⟩ := hq
      obtain ⟨r1, r2⟩ := h3.rows t (List.mem_of_getElem? ht)
      refine ⟨t.q, t.l, ?_, r1, ?_⟩
      · rw [h3.queues, List.getElem?_map, ht]; rfl
      · have := congrArg List.length r2
        rwa [List.length_map, List.length_map] at this

/-- **C110** for every history: a packet that comes into a queue of `n` packets costs exactly `queueSteps` of `n`. -/
theorem C110_exact {name : String} {a : Bool} {shared : Shared} (hp : PoolRun shared.pool shared.theirs)
    {H : List (ObjOracle × DemuxOp)} (hv : ∀ x ∈ H, x.1.Valid) {d : ObjDemuxer} (hd : (ObjDemuxer.new name a shared).run H = ok d) :
    ∃ h s, h.map Prod.snd = H.map Prod.snd ∧ Reached name a h s ∧ d.base.calls = s.calls ∧
      ∀ i : Nat, ∀ q, s.packets[i]? = some q → ∀ p, d.enqueueCount i p = ok (queueSteps s.completed q.length) := by
  obtain ⟨h, s, h1, h2, h3, h4, _, h6⟩ := reached_objects hp hv hd
  refine ⟨h, s, h1, h2, h4, fun i q hq p => ?_⟩
  obtain ⟨l, xs, e1, e2, e3⟩ := h6 i q hq
  rw [enqueueCount_eq e1 e2 p, h3, e3]

/-- **C110** for every history: the first packet of a queue that is made for it costs nothing, and every other packet what its queue tells. -/
theorem C110_process {name : String} {a : Bool} {shared : Shared} (hp : PoolRun shared.pool shared.theirs)
    {H : List (ObjOracle × DemuxOp)} (hv : ∀ x ∈ H, x.1.Valid) {d : ObjDemuxer} (hd : (ObjDemuxer.new name a shared).run H = ok d) :
    ∃ h s, h.map Prod.snd = H.map Prod.snd ∧ Reached name a h s ∧
      ∀ p x, d.shared.pool.objs[p]? = some x → 0 ≤ x.index →
        d.processCount p = ok (queueSteps s.completed (s.packets.getD x.index.toNat []).length) := by
  obtain ⟨h, s, h1, h2, h3, h4, h5, h6⟩ := reached_objects hp hv hd
  refine ⟨h, s, h1, h2, fun p x hx h0 => ?_⟩
  unfold ObjDemuxer.processCount
  rw [idx_eq_ok.2 hx, ok_bind]
  obtain ⟨i, hi⟩ := Int.eq_ofNat_of_zero_le h0
  rw [hi, Int.toNat_natCast, List.getD_eq_getElem?_getD]
  by_cases hl : i < s.packets.length
  · rw [if_pos (by omega), List.getElem?_eq_getElem hl, Option.getD_some]
    obtain ⟨l, xs, e1, e2, e3⟩ := h6 i _ (List.getElem?_eq_getElem hl)
    rw [enqueueCount_eq e1 e2 p, h3, e3]
  · rw [if_neg (by omega), List.getElem?_eq_none (by omega), Option.getD_none]
    have := enqueueCount_eq (d := { d with queues := d.queues ++ [LList.empty] }) (i := d.queues.length) (q := LList.empty) (xs := [])
      (by simp) ⟨[], LList.rep_empty⟩ p
    rw [this]
    unfold queueSteps
    simp

/-- **C110**, after probing: a packet costs nothing, however many have come. -/
theorem C110_completed {name : String} {a : Bool} {shared : Shared} (hp : PoolRun shared.pool shared.theirs)
    {H : List (ObjOracle × DemuxOp)} (hv : ∀ x ∈ H, x.1.Valid) {d : ObjDemuxer} (hd : (ObjDemuxer.new name a shared).run H = ok d)
    (hc : d.base.completed = true) (i : Nat) (hi : i < d.queues.length) (p : Nat) : d.enqueueCount i p = ok 0 := by
  obtain ⟨h, s, h1, h2, h3, h4, h5, h6⟩ := reached_objects hp hv hd
  rw [h5] at hi
  obtain ⟨l, xs, e1, e2, e3⟩ := h6 i _ (List.getElem?_eq_getElem hi)
  have := C62_held_back h2 (by rw [← h3]; exact hc) _ (List.getElem_mem hi)
  rw [enqueueCount_eq e1 e2 p, e3]
  unfold queueSteps
  split
  · rfl
  · rw [show (s.packets[i].length - 1) = 0 by omega]

/-- How long queues are while probing, if the packets of a buffer are apart. -/
theorem probing_queues {name : String} {a : Bool} {h : List (Oracle × DemuxOp)} {s : Demuxer} {k P : Nat} (hn : KnownName name) (hk : 0 < k)
    (hr : Reached name a h s) (hp : ∀ x ∈ h, x.2.PacketOnly) (hid : ∀ x ∈ h, x.1.preprocess = id) (hd : Paced k name h)
    (hP : ProbeAtMost P h) (hc : s.completed = false) : ∀ q ∈ s.packets, q.length ≤ probePackets k P := by
  intro q hq
  have he := (C62_exact_probing hr hc).2
  rw [he] at hq
  obtain ⟨l, hl, rfl⟩ := List.mem_map.1 hq
  obtain ⟨i, hi, rfl⟩ := List.mem_iff_getElem.1 hl
  have hlane : (lanes (taken s.calls))[i] = ofTrack i (taken s.calls) := by
    have := (lanes_firsts (taken_nonneg hr) (C62_packet_input hr hp)).1 i
    rwa [List.getD_eq_getElem?_getD, List.getElem?_eq_getElem hi, Option.getD_some] at this
  have hlen : (timed (lanes (taken s.calls))[i] ++ (lanes (taken s.calls))[i].getLast?.toList).length = (lanes (taken s.calls))[i].length := by
    rw [List.length_append, timed_length]
    cases hx : (lanes (taken s.calls))[i] using List.reverseRecOn with
    | nil => rfl
    | append_singleton l x => simp
  rw [hlen, hlane]
  by_cases h0 : ofTrack i (taken s.calls) = []
  · rw [h0]; exact Nat.zero_le _
  · obtain ⟨x, hx⟩ := List.exists_mem_of_ne_nil _ h0
    have hkn := Demuxer.Reached.takenKnown hr
    have hxm := (List.mem_filter.1 hx)
    refine le_trans ?_ (C106_packets hn hk hr hp hid hd hP hc x.bufferIndex)
    have hall : ∀ y ∈ ofTrack i (taken s.calls), decide (y.bufferIndex = x.bufferIndex) = true := by
      intro y hy
      have hym := List.mem_filter.1 hy
      have e1 := hkn x hxm.1
      have e2 := hkn y hym.1
      have hix : x.index = i := by simpa using hxm.2
      have hiy : y.index = i := by simpa using hym.2
      unfold Demuxer.Known at e1 e2
      rw [hix] at e1
      rw [hiy, e1] at e2
      injection e2 with e2
      simp [e2]
    have hs : (ofTrack i (taken s.calls)).Sublist (taken s.calls) := List.filter_sublist
    have := hs.filter (fun y : AVPacket => decide (y.bufferIndex = x.bufferIndex))
    rw [List.filter_eq_self.2 hall] at this
    exact this.length_le

theorem queueSteps_mono (c : Bool) {n m : Nat} (h : n ≤ m) : queueSteps c n ≤ queueSteps c m := by
  unfold queueSteps
  by_cases hn : n = 0
  · rw [if_pos hn]; exact Nat.zero_le _
  · rw [if_neg hn, if_neg (show ¬ m = 0 by omega)]
    cases c
    · rw [if_neg (by decide), if_neg (by decide)]
      have : n * (n - 1) / 2 ≤ m * (m - 1) / 2 := Nat.div_le_div_right (Nat.mul_le_mul h (by omega))
      omega
    · rw [if_pos rfl, if_pos rfl]; omega

/-- **C110**, while probing: if each packet of a buffer comes at least `k` milliseconds after the one before, the steps for a packet are
bounded by the square of the number of packets that fit into the time to probe. -/
theorem C110_paced {name : String} {a : Bool} {h : List (Oracle × DemuxOp)} {s : Demuxer} {k P : Nat} (hn : KnownName name) (hk : 0 < k)
    (hr : Reached name a h s) (hp : ∀ x ∈ h, x.2.PacketOnly) (hid : ∀ x ∈ h, x.1.preprocess = id) (hd : Paced k name h)
    (hP : ProbeAtMost P h) : ∀ q ∈ s.packets, queueSteps s.completed q.length ≤ queueSteps false (probePackets k P) := by
  intro q hq
  cases hc : s.completed with
  | false => exact queueSteps_mono false (probing_queues hn hk hr hp hid hd hP hc q hq)
  | true =>
    have := C62_held_back hr hc q hq
    unfold queueSteps
    split
    · exact Nat.zero_le _
    · rw [if_pos rfl, show q.length - 1 = 0 by omega]; exact Nat.zero_le _

/-- **C110**, the sum: `n + 1` packets that come into one queue while probing cost together a sixth of `n * (n - 1) * (n + 4)`. -/
theorem C110_total (n : Nat) : 6 * probingSteps (n + 1) = n * (n - 1) * (n + 4) := by
  induction n with
  | zero => rfl
  | succ n ih =>
    rw [probingSteps, Nat.mul_add, ih, Nat.add_sub_cancel]
    unfold queueSteps
    rw [if_neg (by omega), if_neg (by decide), Nat.add_sub_cancel]
    have hev : 2 * ((n + 1) * n / 2) = (n + 1) * n := Nat.mul_div_cancel' (by rw [Nat.mul_comm]; exact (Nat.even_mul_succ_self n).two_dvd)
    have : 6 * (n + (n + 1) * n / 2) = 6 * n + 3 * ((n + 1) * n) := by omega
    rw [this]
    cases n with
    | zero => rfl
    | succ m => rw [Nat.add_sub_cancel]; ring

/-! ## The condition is needed -/

/-- **C110** in full: there is a number of steps that is enough for every packet. -/
def C110_claim : Prop :=
  ∃ B, ∀ name a shared H d, PoolRun shared.pool shared.theirs → (∀ x ∈ H, x.1.Valid) → (∀ x ∈ H, x.2.PacketOnly) →
    (ObjDemuxer.new name a shared).run H = ok d → ∀ i p n, d.enqueueCount i p = ok n → n ≤ B

/-- After `n + 1` packets whose time stands still, with any choices. -/
structure StillAny (n : Nat) (s : Demuxer) : Prop where
  track : ∃ t, s.tracks.tracks = [t] ∧ t.index = 0 ∧ t.timebase = 90000
  buffer : s.bufferOf = [(0, 0)]
  packets : ∃ q, s.packets = [q] ∧ q.length = n + 1 ∧ ∀ x ∈ q, x.dts = 0 ∧ x.duration = 0 ∧ x.timebase = 90000
  completed : s.completed = false
  duration : s.probeDuration = 0

theorem probed_none (u : Int) : ∀ q : List AVPacket, (∀ x ∈ q, x.duration = 0 ∧ x.timebase = 90000) → Demuxer.probed u q = 0 := by
  have key : ∀ q : List AVPacket, (∀ x ∈ q, x.duration = 0 ∧ x.timebase = 90000) →
      q.foldl (fun d p => wrap64 (d + p.getDuration u 1000)) 0 = 0 := by
    intro q
    induction q with
    | nil => intro _; rfl
    | cons x q ih =>
      intro h
      rw [List.foldl_cons]
      obtain ⟨h1, h2⟩ := h x (List.mem_cons_self ..)
      have : wrap64 (0 + x.getDuration u 1000) = 0 := by
        rw [duration_ms u x (Or.inl h2) (by omega) (by omega), h1, h2]; decide +kernel
      rw [this]
      exact ih fun y hy => h y (List.mem_cons_of_mem _ hy)
  exact key

/-- The operation. -/
def stillAudio : DemuxOp := .audioPacket 0 codecPCMS16LE [1] 0

theorem stillAny_step {n : Nat} {s : Demuxer} {o : Oracle} (ho : o.Valid) (h : StillAny n s) :
    ∃ s', stillAudio.run o s = ok s' ∧ StillAny (n + 1) s' := by
  obtain ⟨⟨t, ht, hti, htb⟩, hb, ⟨q, hp, hq, hall⟩, hc, hd⟩ := h
  have hf : s.findTrackByBufferIndex o 0 = ok (some t) := by
    unfold Demuxer.findTrackByBufferIndex
    have := ho.order s.bufferOf
    rw [hb, List.perm_singleton] at this
    rw [hb, this]
    simp [TrackManager.get, ht, idxI, idx]
  obtain ⟨P, hP⟩ : ∃ P : AVPacket, P =
    { data := [1], pts := 0, dts := 0, codecID := codecPCMS16LE, index := t.index, timebase := t.timebase, mediaType := mediaAudio
      packetType := o.audioType, bufferIndex := 0 } := ⟨_, rfl⟩
  have hPi : P.index = 0 := by rw [hP]; exact hti
  obtain ⟨q', x, rfl⟩ : ∃ q' x, q = q' ++ [x] := by
    cases q using List.reverseRecOn with
    | nil => simp at hq
    | append_singleton q' x => exact ⟨q', x, rfl⟩
  obtain ⟨s1, hs1⟩ : ∃ s1 : Demuxer, s1 = s.call [.accepted P] := ⟨_, rfl⟩
  have hp1 : s1.packets = [q' ++ [x]] := by rw [hs1]; exact hp
  have hx := hall x (by simp)
  have hw : wrap64 (P.dts - x.dts) = 0 := by rw [hx.1, hP]; show wrap64 (0 - 0) = 0; decide +kernel
  have hnext := Demuxer.process_next o (s := s1) (p := P) (x := x) (q := q') (by omega) (by
    unfold Demuxer.slot
    rw [hPi, hp1]; rfl)
  dsimp only at hnext
  rw [hw] at hnext
  have hc1 : s1.completed = false := by rw [hs1]; exact hc
  have hd1 : s1.probeDuration = 0 := by rw [hs1]; exact hd
  have hx0 : ({ x with duration := 0 } : AVPacket) = x := by
    obtain ⟨_, h2, _⟩ := hx
    cases x; simp only at h2; subst h2; rfl
  rw [hx0, hc1, if_neg (by decide), probed_none o.undef _ (fun y hy => (hall y hy).2), hd1, if_neg (by decide)] at hnext
  refine ⟨{ s1 with packets := Demuxer.push s1.packets P }, ?_, ?_⟩
  · show s.onAudioPacket o 0 codecPCMS16LE [1] 0 = _
    unfold Demuxer.onAudioPacket
    rw [hf, ok_bind, if_neg (by simp)]
    simp only [ok_bind]
    rw [← hP, ← hs1, hnext, hc1, hd1]
  · have hpush : Demuxer.push s1.packets P = [q' ++ [x, P]] := by
      unfold Demuxer.push
      rw [hp1, if_pos (by rw [hPi]; simp), hPi]
      show [Demuxer.stamp (q' ++ [x]) P] = _
      rw [Demuxer.stamp_concat, hw, hx0]
    refine ⟨⟨t, by rw [hs1]; exact ht, hti, htb⟩, by rw [hs1]; exact hb, ⟨q' ++ [x, P], hpush, ?_, ?_⟩, hc1, hd1⟩
    · simp at hq ⊢; omega
    · intro y hy
      rw [show q' ++ [x, P] = (q' ++ [x]) ++ [P] by simp] at hy
      rcases List.mem_append.1 hy with hy | hy
      · exact hall y hy
      · rw [List.mem_singleton] at hy
        subst hy
        rw [hP]
        exact ⟨rfl, rfl, htb⟩

theorem stillAny_first {o : Oracle} (ho : o.Valid) : ∃ s, stillAudio.run o (Demuxer.new "ts" true) = ok s ∧ StillAny 0 s := by
  show ∃ s, (Demuxer.new "ts" true).onAudioPacket o 0 codecPCMS16LE [1] 0 = ok s ∧ _
  unfold Demuxer.onAudioPacket Demuxer.findTrackByBufferIndex
  have : o.order (Demuxer.new "ts" true).bufferOf = [] := by
    have := ho.order (Demuxer.new "ts" true).bufferOf
    exact List.perm_nil.1 this
  rw [this]
  exact ⟨_, rfl, ⟨_, rfl, rfl, rfl⟩, rfl, ⟨_, rfl, rfl, by simp⟩, rfl, rfl⟩

theorem stillAny_run : ∀ (h : List (Oracle × DemuxOp)) (k : Nat) (s : Demuxer), (∀ x ∈ h, x.1.Valid ∧ x.2 = stillAudio) → StillAny k s →
    ∃ s', runDemux s h = ok s' ∧ StillAny (k + h.length) s' := by
  intro h
  induction h with
  | nil => exact fun k s _ h => ⟨s, rfl, h⟩
  | cons x h ih =>
    intro k s hv hs
    obtain ⟨o, e⟩ := x
    obtain ⟨ho, rfl⟩ : o.Valid ∧ e = stillAudio := hv (o, e) (List.mem_cons_self ..)
    obtain ⟨s1, h1, h2⟩ := stillAny_step ho hs
    obtain ⟨s2, h3, h4⟩ := ih (k + 1) s1 (fun x hx => hv x (List.mem_cons_of_mem _ hx)) h2
    refine ⟨s2, ?_, by rw [List.length_cons, show k + (h.length + 1) = k + 1 + h.length by omega]; exact h4⟩
    show (stillAudio.run o s >>= _) = _
    rw [h1]; exact h3

/-- **C110**: if the time of the packets stands still, the packet after `n + 1` others costs `queueSteps` of `n + 1`, which grows with the
square of `n`. -/
theorem C110_still (shared : Shared) (hp : PoolRun shared.pool shared.theirs) (H : List (ObjOracle × DemuxOp)) (n : Nat)
    (hv : ∀ x ∈ H, x.1.Valid ∧ x.2 = stillAudio) (hl : H.length = n + 1) :
    ∃ d, (ObjDemuxer.new "ts" true shared).run H = ok d ∧ ∀ p, d.enqueueCount 0 p = ok (queueSteps false (n + 1)) := by
  obtain ⟨h, h1, h2, h3⟩ := C81_packet_objects "ts" true shared hp H (fun x hx => (hv x hx).1)
  have hh : ∀ x ∈ h, x.1.Valid ∧ x.2 = stillAudio := by
    intro x hx
    refine ⟨(h2 x hx).1, ?_⟩
    have : x.2 ∈ H.map Prod.snd := by rw [← h1]; exact List.mem_map_of_mem hx
    obtain ⟨y, hy, e⟩ := List.mem_map.1 this
    rw [← e]; exact (hv y hy).2
  have hlen : h.length = n + 1 := by
    have := congrArg List.length h1
    rw [List.length_map, List.length_map] at this
    omega
  have hrun : ∃ s, runDemux (Demuxer.new "ts" true) h = ok s ∧ StillAny n s := by
    cases h with
    | nil => simp at hlen
    | cons x h =>
      obtain ⟨o, e⟩ := x
      obtain ⟨ho, rfl⟩ : o.Valid ∧ e = stillAudio := hh (o, e) (List.mem_cons_self ..)
      obtain ⟨s1, e1, e2⟩ := stillAny_first ho
      obtain ⟨s2, e3, e4⟩ := stillAny_run h 0 s1 (fun x hx => hh x (List.mem_cons_of_mem _ hx)) e2
      refine ⟨s2, ?_, by rw [List.length_cons] at hlen; rwa [show 0 + h.length = n by omega] at e4⟩
      show (stillAudio.run o _ >>= _) = _
      rw [e1]; exact e3
  obtain ⟨s, e1, e2⟩ := hrun
  rw [e1] at h3
  cases hd : (ObjDemuxer.new "ts" true shared).run H with
  | err m => rw [hd] at h3; exact h3.elim
  | panic => rw [hd] at h3; exact h3.elim
  | ok d =>
    rw [hd] at h3
    have h3 : SameDemuxer d s := h3
    refine ⟨d, rfl, fun p => ?_⟩
    have hc : d.base.completed = false := by
      have := h3.rest
      have hcs := e2.completed
      generalize s.packets = Q at this
      subst this; exact hcs
    obtain ⟨h', s', f1, f2, f3, _, f5, f6⟩ := reached_objects hp (fun x hx => (hv x hx).1) hd
    obtain ⟨q, g1, g2, _⟩ := e2.packets
    have hql : d.queued.map List.length = [n + 1] := by
      have := congrArg (List.map List.length) h3.packets
      rw [List.map_map, List.map_map, g1] at this
      simpa [g2] using this
    have hdl : d.queues.length = 1 := by
      have := congrArg List.length hql
      unfold ObjDemuxer.queued at this
      simpa using this
    have hl' : 0 < s'.packets.length := by omega
    obtain ⟨l, xs, k1, k2, k3⟩ := f6 0 _ (List.getElem?_eq_getElem hl')
    have := enqueueCount_eq k1 k2 p
    have hxs : xs.length = n + 1 := by
      have hz : (d.queued.map List.length)[0]? = some xs.length := by
        unfold ObjDemuxer.queued
        rw [List.getElem?_map, List.getElem?_map, k1]
        simp only [Option.map_some]
        rw [LRel_elems k2]
      rw [hql] at hz
      simpa using hz.symm
    rw [hc, hxs] at this
    exact this

/-- **C110** is false: while probing every packet looks at all packets before. -/
theorem C110_claim_violated : ¬ C110_claim := by
  rintro ⟨B, hB⟩
  have hval : (exObj fun _ => []).Valid := ⟨exObj_choices _, by intro n a h; cases h⟩
  obtain ⟨d, h1, h2⟩ := C110_still {} .init (List.replicate (B + 3) (exObj fun _ => [], stillAudio)) (B + 2)
    (fun x hx => by rw [(List.mem_replicate.1 hx).2]; exact ⟨hval, rfl⟩) (by simp)
  have := hB "ts" true {} _ d .init (fun x hx => by rw [(List.mem_replicate.1 hx).2]; exact hval)
    (fun x hx => by rw [(List.mem_replicate.1 hx).2]; trivial) h1 0 0 _ (h2 0)
  unfold queueSteps at this
  rw [if_neg (by omega), if_neg (by decide)] at this
  omega

/-! ## Concrete cases -/

/-- Six packets with the same time: 0 + 0 + 2 + 5 + 9 + 14 steps. -/
example : (List.range 6).map (queueSteps false) = [0, 0, 2, 5, 9, 14] ∧ probingSteps 6 = 30 ∧ probingSteps 1001 = 167166000 := by
  refine ⟨by decide, by decide, ?_⟩
  have := C110_total 1000
  norm_num at this
  omega

/-- A list of three; the third element is two steps away. -/
example : ((LList.empty : LList Nat).add 5 >>= fun l => l.add 6 >>= fun l => l.add 7 >>= fun l => l.getCount 2) = ok (7, 2) := by decide

/-- Forty milliseconds apart and 500 ms of probing: at most 13 packets in a queue, at most 90 steps. -/
example : probePackets 40 500 = 13 ∧ queueSteps false 13 = 90 := by decide

/-- The run of `objRun`: before the second packet the queue has one, and after probing packets cost nothing. -/
example : ((ObjDemuxer.new "ps" true {}).run ((objRun fun _ => []).take 1) >>= fun d => d.enqueueCount 0 0) = ok 0 ∧
    ((ObjDemuxer.new "ps" true {}).run (objRun fun _ => []) >>= fun d => ok (d.base.completed, d.enqueueCount 0 0)) = ok (true, ok 0) := by
  decide +kernel

/-- Five packets whose time stands still; the sixth costs 14 steps. -/
example : ((ObjDemuxer.new "ts" true {}).run (List.replicate 5 (exObj fun _ => [], stillAudio)) >>= fun d => d.enqueueCount 0 0) = ok 14 := by
  decide +kernel

end Avf
