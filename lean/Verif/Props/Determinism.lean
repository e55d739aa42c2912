import Verif.Lemmas.Determinism
import Verif.Props.Demuxer
/-! # C113: what the choices of the Go runtime may change -/
namespace Avf
open Go

theorem Micros.buffers {s s' : Demuxer} (m : Demuxer.Micros s s') : s.bufferOf <+: s'.bufferOf := by
  induction m with
  | refl => exact List.prefix_refl _
  | tail _ m ih =>
    cases m with
    | live p _ _ => unfold Demuxer.live; split <;> exact ih
    | register t b _ _ => exact ih.trans (List.prefix_append ..)
    | _ => exact ih

theorem runDemux_alike : ∀ (h h' : List (Oracle × DemuxOp)) {s s' t : Demuxer}, (∀ x ∈ h, x.1.Valid) → (∀ x ∈ h', x.1.Valid) → SameHistory h h' →
    Demuxer.Inv s → Demuxer.Alike s s' → runDemux s h = ok t → (t.bufferOf.map Prod.snd).Nodup →
    ∃ t', runDemux s' h' = ok t' ∧ Demuxer.Alike t t' := by
  intro h h' s s' t hv hv' hh
  unfold SameHistory at hh
  induction hh generalizing s s' with
  | nil => intro _ ha hr _; cases hr; exact ⟨_, rfl, ha⟩
  | @cons x y h h' hxy _ ih =>
    intro hi ha hr hn
    obtain ⟨o, e⟩ := x
    obtain ⟨o', e'⟩ := y
    obtain ⟨hag, rfl⟩ := hxy
    have ho := hv _ (List.mem_cons_self ..)
    obtain ⟨s1, h1, hr⟩ := bind_eq_ok.1 hr
    have m1 := Demuxer.run_micros ho hi h1
    have m2 := Demuxer.runDemux_micros (hi.micros m1) (fun y hy => hv y (List.mem_cons_of_mem _ hy)) hr
    obtain ⟨s1', g1, g2⟩ := Demuxer.step_alike ho (hv' _ (List.mem_cons_self ..)) hag hi
      (hn.sublist (((Micros.buffers m1).trans (Micros.buffers m2)).sublist.map _)) ha h1
    obtain ⟨t', g3, g4⟩ := ih (fun y hy => hv y (List.mem_cons_of_mem _ hy)) (fun y hy => hv' y (List.mem_cons_of_mem _ hy)) (hi.micros m1) g2 hr hn
    refine ⟨t', ?_, g4⟩
    show e.run o' s' >>= _ = _
    rw [g1]
    exact g3

/-- **C113**: if no two tracks are on one buffer, a history ends in the same state whatever the order that maps are iterated in and that
sorting gives to packets with equal DTS. The calls to the outside are the same too, but for the order of packets with equal DTS among those
that probing had kept back. -/
theorem C113_same {name : String} {a : Bool} {h h' : List (Oracle × DemuxOp)} {s : Demuxer} (hr : Reached name a h s)
    (hn : (s.bufferOf.map Prod.snd).Nodup) (hh : SameHistory h h') (hv : ∀ x ∈ h', x.1.Valid) :
    ∃ s', Reached name a h' s' ∧ s' = { s with calls := s'.calls } ∧ Reordered a s.calls s'.calls := by
  obtain ⟨s', h1, h2⟩ := runDemux_alike h h' hr.1 hv hh (Demuxer.Inv.new name a) (Demuxer.Alike.refl _) hr.2 hn
  have ha : s.autoFree = a := (Demuxer.Reached.micros hr).keepsFree
  exact ⟨s', ⟨hv, h1⟩, h2.core, ha ▸ h2.calls⟩

theorem delivered_handOver (a : Bool) (l : List AVPacket) : delivered (l.flatMap (handOver a)) = l := by
  induction l with
  | nil => rfl
  | cons p l ih =>
    rw [List.flatMap_cons, Demuxer.delivered_append, ih]
    cases a <;> rfl

theorem reordered_delivered {a : Bool} {cs cs' : List Call} (h : Reordered a cs cs') (P : AVPacket → Bool)
    (hd : ((delivered cs).filter P).Pairwise fun p q => p.dts ≠ q.dts) : (delivered cs').filter P = (delivered cs).filter P := by
  obtain ⟨x, l, l', y, rfl, rfl, hp, h1, h2⟩ := h
  simp only [Demuxer.delivered_append, delivered_handOver, List.filter_append] at hd ⊢
  congr 2
  have hd' : (l.filter P).Pairwise fun p q => p.dts ≠ q.dts := hd.sublist ((List.sublist_append_right ..).trans (List.sublist_append_left ..))
  have hnd : ((l.filter P).map AVPacket.dts).Nodup := List.pairwise_map.2 hd'
  refine List.Perm.eq_of_pairwise (fun p q hp' hq' h3 h4 => ?_) (h2.filter P) (h1.filter P) (hp.symm.filter P)
  exact List.inj_on_of_nodup_map hnd ((hp.filter P).mem_iff.2 hp') hq' (by omega)

/-- **C113**: each track gets the same packets in the same order, if no two of them have the same DTS. -/
theorem C113_tracks {name : String} {a : Bool} {h h' : List (Oracle × DemuxOp)} {s : Demuxer} (hr : Reached name a h s)
    (hn : (s.bufferOf.map Prod.snd).Nodup) (hh : SameHistory h h') (hv : ∀ x ∈ h', x.1.Valid) (i : Nat)
    (hd : (ofTrack i (delivered s.calls)).Pairwise fun p q => p.dts ≠ q.dts) :
    ∃ s', Reached name a h' s' ∧ ofTrack i (delivered s'.calls) = ofTrack i (delivered s.calls) := by
  obtain ⟨s', h1, _, h2⟩ := C113_same hr hn hh hv
  exact ⟨s', h1, reordered_delivered h2 _ hd⟩

/-- **C113**: nothing depends on these choices, if no two packets have the same DTS. -/
theorem C113_equal {name : String} {a : Bool} {h h' : List (Oracle × DemuxOp)} {s : Demuxer} (hr : Reached name a h s)
    (hn : (s.bufferOf.map Prod.snd).Nodup) (hh : SameHistory h h') (hv : ∀ x ∈ h', x.1.Valid)
    (hd : (delivered s.calls).Pairwise fun p q => p.dts ≠ q.dts) : Reached name a h' s := by
  obtain ⟨s', h1, h2, x, l, l', y, e1, e2, hp, h3, h4⟩ := C113_same hr hn hh hv
  have hl : l' = l := by
    have hd' : l.Pairwise fun p q => p.dts ≠ q.dts := by
      rw [e1] at hd
      simp only [Demuxer.delivered_append, delivered_handOver] at hd
      exact hd.sublist ((List.sublist_append_right ..).trans (List.sublist_append_left ..))
    have hnd : (l.map AVPacket.dts).Nodup := List.pairwise_map.2 hd'
    refine List.Perm.eq_of_pairwise (fun p q hp' hq' g1 g2 => ?_) h4 h3 hp.symm
    exact List.inj_on_of_nodup_map hnd (hp.mem_iff.2 hp') hq' (by omega)
  have : s' = s := by rw [h2, e2, hl, ← e1]
  rwa [this] at h1

/-- **C113**: packets alone make no two tracks on one buffer. -/
theorem C113_packets {name : String} {a : Bool} {h : List (Oracle × DemuxOp)} {s : Demuxer} (hr : Reached name a h s)
    (hp : ∀ x ∈ h, x.2.PacketOnly) : (s.bufferOf.map Prod.snd).Nodup :=
  Demuxer.runDemux_injective (s := Demuxer.new name a) (Demuxer.Inv.new name a) hr.1 hp hr.2 List.nodup_nil

/-- The claim: what is called does not depend on these choices. -/
def C113_claim : Prop := ∀ (name : String) (a : Bool) (h h' : List (Oracle × DemuxOp)) (s s' : Demuxer), Reached name a h s → Reached name a h' s' →
  SameHistory h h' → toHandler s'.calls = toHandler s.calls

/-- A sort that turns packets with equal DTS round. -/
def turnOracle : Oracle := { exOracle with sort := fun l => exOracle.sort l.reverse }

theorem turnOracle_valid : turnOracle.Valid :=
  { exOracle_valid with
    sortPerm := fun l => (exOracle_valid.sortPerm _).trans (List.reverse_perm l)
    sorted := fun l => exOracle_valid.sorted _ }

theorem turnOracle_agrees : exOracle.Agrees turnOracle := ⟨rfl, rfl, rfl, rfl⟩

/-- Two tracks that begin at the same time. -/
def tiedOps : List DemuxOp :=
  [.audioPacket 0 codecPCMS16LE [1] 0, .audioPacket 1 codecPCMS16LE [2] 0, .audioPacket 0 codecPCMS16LE [3] 900,
   .audioPacket 1 codecPCMS16LE [4] 1800, .probeComplete, .audioPacket 0 codecPCMS16LE [5] 3600]

/-- The payloads that the handler gets. -/
def arriving (o : Oracle) (name : String) (ops : List DemuxOp) : Go (List (Int × Bytes)) := do
  let s ← runDemux (Demuxer.new name true) (ops.map (o, ·))
  return (delivered s.calls).map fun p => (p.index, p.data)

theorem sameHistory_map {o o' : Oracle} (h : o.Agrees o') (ops : List DemuxOp) : SameHistory (ops.map (o, ·)) (ops.map (o', ·)) := by
  induction ops with
  | nil => exact .nil
  | cons e ops ih => exact .cons ⟨h, rfl⟩ ih

theorem inbound_reached {o : Oracle} (ho : o.Valid) {name : String} {ops : List DemuxOp} {x : List (Int × Bytes)} (h : arriving o name ops = ok x) :
    ∃ s, Reached name true (ops.map (o, ·)) s ∧ (delivered s.calls).map (fun p => (p.index, p.data)) = x := by
  obtain ⟨s, h1, h2⟩ := bind_eq_ok.1 h
  refine ⟨s, ⟨fun x hx => ?_, h1⟩, ?_⟩
  · obtain ⟨e, _, rfl⟩ := List.mem_map.1 hx
    exact ho
  · injection h2

/-- What comes first of two tracks that begin at the same time is left open. -/
theorem C113_claim_violated : ¬ C113_claim := by
  intro hc
  obtain ⟨s, h1, e1⟩ := inbound_reached (ops := tiedOps) exOracle_valid (name := "ps") (x := [(0, [1]), (1, [2]), (0, [3])]) (by decide +kernel)
  obtain ⟨s', h2, e2⟩ := inbound_reached (ops := tiedOps) turnOracle_valid (name := "ps") (x := [(1, [2]), (0, [1]), (0, [3])]) (by decide +kernel)
  have := hc "ps" true _ _ s s' h1 h2 (sameHistory_map turnOracle_agrees tiedOps)
  have e := congrArg delivered this
  rw [delivered_toHandler, delivered_toHandler] at e
  rw [e, e1] at e2
  exact absurd e2 (by decide)

/-- And with two tracks on one buffer it is left open which of them gets a packet. -/
theorem C113_shared_violated :
    arriving exOracle "ts" [.newAudioTrack 0 codecPCMS16LE 90000 none {}, .newAudioTrack 0 codecG726 90000 none {}, .audioPacket 0 codecG726 [1] 0,
      .audioPacket 0 codecG726 [2] 900, .probeComplete] = ok [(0, [1])] ∧
    arriving backOracle "ts" [.newAudioTrack 0 codecPCMS16LE 90000 none {}, .newAudioTrack 0 codecG726 90000 none {}, .audioPacket 0 codecG726 [1] 0,
      .audioPacket 0 codecG726 [2] 900, .probeComplete] = ok [] := by
  constructor <;> decide +kernel

/-- The hypotheses of `C113_tracks` hold of `tiedOps`. -/
example : ∃ s, Reached "ps" true (tiedOps.map (exOracle, ·)) s ∧ (s.bufferOf.map Prod.snd).Nodup ∧ s.bufferOf = [(0, 0), (1, 1)] ∧
    SameHistory (tiedOps.map (exOracle, ·)) (tiedOps.map (turnOracle, ·)) ∧ (∀ x ∈ tiedOps.map (turnOracle, ·), x.1.Valid) ∧
    (ofTrack 0 (delivered s.calls)).map (fun p => (p.dts, p.data)) = [(0, [1]), (900, [3])] := by
  have h : (runDemux (Demuxer.new "ps" true) (tiedOps.map (exOracle, ·)) >>= fun s => ok (decide (s.bufferOf = [(0, 0), (1, 1)] ∧
      (ofTrack 0 (delivered s.calls)).map (fun p => (p.dts, p.data)) = [(0, [1]), (900, [3])]))) = ok true := by decide +kernel
  obtain ⟨s, h1, h2⟩ := bind_eq_ok.1 h
  simp only [Go.ok.injEq, decide_eq_true_eq] at h2
  refine ⟨s, ⟨fun x hx => ?_, h1⟩, by rw [h2.1]; decide, h2.1, sameHistory_map turnOracle_agrees _, fun x hx => ?_, h2.2⟩
  · obtain ⟨e, _, rfl⟩ := List.mem_map.1 hx
    exact exOracle_valid
  · obtain ⟨e, _, rfl⟩ := List.mem_map.1 hx
    exact turnOracle_valid

end Avf
