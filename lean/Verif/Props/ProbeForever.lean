import Verif.Props.ProbeTime
/-!
# C106, continued: packets that come close after one another never end probing
-/
namespace Avf
open Go

/-- In every buffer each packet comes less than a millisecond after the one before, and all times are moderate numbers. -/
structure Crowded (name : String) (h : List (Oracle × DemuxOp)) : Prop where
  close : ∀ b, (framesOf b h).IsChain fun f g => 0 ≤ g.dts - f.dts ∧ 1000 * (g.dts - f.dts) < timebaseOf name
  range : ∀ b, ∀ f ∈ framesOf b h, -2 ^ 50 ≤ f.dts ∧ f.dts ≤ 2 ^ 50

theorem Crowded.prefix {name : String} {h h' : List (Oracle × DemuxOp)} (hd : Crowded name (h ++ h')) : Crowded name h :=
  ⟨fun b => by have := hd.close b; rw [framesOf_append] at this; exact (List.isChain_append.1 this).1,
   fun b f hf => hd.range b f (by rw [framesOf_append]; exact List.mem_append_left _ hf)⟩

theorem Crowded.paced {name : String} {h : List (Oracle × DemuxOp)} (hd : Crowded name h) : Paced 0 name h :=
  ⟨fun b => (hd.close b).imp fun f g hfg => by simp only [Nat.cast_zero, Int.zero_mul]; omega, hd.range⟩

theorem isPacket_only {e : DemuxOp} (h : e.IsPacket) : e.PacketOnly := by
  cases e <;> first | trivial | exact absurd h (by simp [DemuxOp.IsPacket])

/-- Less than a millisecond is none. -/
theorem below_ms {d : Int} (h0 : 0 ≤ d) (h1 : d < 90) : convertTs 0 d 90000 1000 = 0 := by
  obtain ⟨n, rfl⟩ := Int.eq_ofNat_of_zero_le h0
  have : ∀ n : Nat, n < 90 → convertTs 0 (n : Int) 90000 1000 = 0 := by decide +kernel
  exact this n (by omega)

theorem msSum_crowded {tb : Int} (htb : tb = 90000 ∨ tb = 1000) : ∀ (l : List AVPacket), (∀ q ∈ l, q.timebase = tb) →
    l.IsChain (fun f g => 0 ≤ g.dts - f.dts ∧ 1000 * (g.dts - f.dts) < tb) → msSum 0 l = 0
  | [], _, _ => rfl
  | [_], _, _ => rfl
  | p :: q :: l, ht, hc => by
    rw [List.isChain_cons_cons] at hc
    have ih := msSum_crowded htb (q :: l) (fun x hx => ht x (List.mem_cons_of_mem _ hx)) hc.2
    have hp := ht p (by simp)
    have hs : msSum 0 (p :: q :: l) = ({ p with duration := wrap64 (q.dts - p.dts) } : AVPacket).getDuration 0 1000 + msSum 0 (q :: l) := rfl
    rw [hs, ih, wrap64_small (by omega) (by rcases htb with e | e <;> rw [e] at hc <;> omega)]
    unfold AVPacket.getDuration
    simp only [hp]
    rcases htb with e | e
    · rw [e] at hc ⊢
      rw [if_neg (by decide), below_ms hc.1.1 (by omega)]; rfl
    · rw [e] at hc ⊢
      rw [if_pos rfl]; omega

/-- **C106**: packets less than a millisecond apart never end probing, however many they are and however much time they cover: the handler
gets nothing, and all of them are kept. -/
theorem C106_never {name : String} {a : Bool} (hn : KnownName name) : ∀ (h : List (Oracle × DemuxOp)) {s : Demuxer}, Reached name a h s →
    (∀ x ∈ h, x.2.IsPacket) → (∀ x ∈ h, x.1.preprocess = id) → Crowded name h →
    s.completed = false ∧ delivered s.calls = [] ∧ (s.packets.flatten.map bare).Perm ((taken s.calls).map bare) := by
  intro h s hr hp hid hd
  have key : s.completed = false := by
    induction h using List.reverseRecOn generalizing s with
    | nil => cases hr.2; rfl
    | append_singleton h x ih =>
      obtain ⟨s0, hr0, ho, h1⟩ := reached_snoc hr
      obtain ⟨o, e⟩ := x
      have hp0 : ∀ x ∈ h, x.2.IsPacket := fun x hx => hp x (List.mem_append_left _ hx)
      have hc0 := ih hr0 hp0 (fun x hx => hid x (List.mem_append_left _ hx)) hd.prefix
      have hpo : ∀ x ∈ h ++ [(o, e)], x.2.PacketOnly := fun x hx => isPacket_only (hp x hx)
      rcases C65_packet_input hr0 (fun x hx => isPacket_only (hp0 x hx)) hc0 ho (hp (o, e) (by simp)) h1 with ⟨_, e1⟩ | ⟨p, e1, e2⟩
      · exact e1
      · have hpt : p ∈ taken s.calls := by rw [e1]; simp
        have hk := Demuxer.lookup_mem (Demuxer.Reached.takenKnown hr p hpt)
        obtain ⟨i, hi⟩ := Int.eq_ofNat_of_zero_le (taken_nonneg hr p hpt)
        have htb := track_buffer hr hpo (i := i) (b := p.bufferIndex) (by rw [hi] at hk; exact hk)
        rw [hi, Int.toNat_natCast, htb] at e2
        obtain ⟨t1, _, t3⟩ := taken_paced hn hr hpo hid hd.paced p.bufferIndex
        rw [msSum_small (timebaseOf_cases name) t1 t3] at e2
        obtain ⟨_, hm⟩ := taken_frames hr hpo hid p.bufferIndex
        have hch : (ofBuffer p.bufferIndex (taken s.calls)).IsChain
            (fun f g => 0 ≤ g.dts - f.dts ∧ 1000 * (g.dts - f.dts) < timebaseOf name) := by
          refine forall₂_chain hm (fun f g q r hf hg hfg => ?_) ((hd.close p.bufferIndex).drop (refusals p.bufferIndex s.calls))
          rw [hf.dts, hg.dts]; exact hfg
        rw [msSum_crowded (timebaseOf_cases name) _ (fun q hq => (t1 q hq).1) hch] at e2
        by_contra hcon
        have := e2.1 (by simpa using hcon)
        omega
  have hdel : delivered s.calls = [] :=
    (C62_probing_partial hr (C62_packet_input hr fun x hx => isPacket_only (hp x hx)) key).1
  have := C62_conserved hr
  rw [hdel, List.nil_append] at this
  exact ⟨key, hdel, this⟩

/-- `n` sound packets, half a millisecond apart. -/
def crowd (n : Nat) : List (Oracle × DemuxOp) :=
  (List.range n).map fun i : Nat => (exOracle, .audioPacket 0 codecPCMS16LE [1, 2] (45 * (i : Int)))

theorem crowd_frames (b : Int) (n : Nat) : framesOf b (crowd n) =
    if b = 0 then (List.range n).map fun i => ⟨false, false, [1, 2], 45 * (i : Int)⟩ else [] := by
  unfold framesOf crowd
  rw [List.filterMap_map]
  split
  · rename_i hb; subst hb
    rw [← List.filterMap_eq_map]; rfl
  · rename_i hb
    rw [List.filterMap_eq_nil_iff]
    intro i _
    simp [DemuxOp.frame, Ne.symm hb]

theorem crowd_crowded {n : Nat} (hn : n ≤ 2 ^ 40) : Crowded "ts" (crowd n) := by
  have htb : timebaseOf "ts" = 90000 := by decide
  refine ⟨fun b => ?_, fun b f hf => ?_⟩
  · rw [crowd_frames, htb]
    split
    · rw [List.isChain_map, List.isChain_iff_getElem]
      intro i hi
      simp only [List.getElem_range]
      push_cast
      omega
    · exact .nil
  · rw [crowd_frames] at hf
    split at hf
    · obtain ⟨i, hi, rfl⟩ := List.mem_map.1 hf
      rw [List.mem_range] at hi
      show _ ≤ 45 * (i : Int) ∧ 45 * (i : Int) ≤ _
      omega
    · cases hf

theorem crowd_ops (n : Nat) : (∀ x ∈ crowd n, x.1 = exOracle) ∧ ∀ x ∈ crowd n, x.2.IsPacket := by
  unfold crowd
  refine ⟨fun x hx => ?_, fun x hx => ?_⟩ <;>
  · obtain ⟨i, _, rfl⟩ := List.mem_map.1 hx
    trivial

theorem crowd_succ (n : Nat) : crowd (n + 1) = crowd n ++ [(exOracle, .audioPacket 0 codecPCMS16LE [1, 2] (45 * n))] := by
  unfold crowd
  rw [List.range_succ, List.map_append]; rfl

/-- None of them is refused. -/
theorem crowd_taken (n : Nat) {s : Demuxer} (hr : Reached "ts" true (crowd (n + 1)) s) :
    (taken s.calls).length = n + 1 ∧ (0 : Int) ∈ s.bufferOf.map Prod.snd := by
  induction n generalizing s with
  | zero =>
    have h : (runDemux (Demuxer.new "ts" true) (crowd 1) >>= fun s =>
      ok ((taken s.calls).length, s.bufferOf.map Prod.snd)) = ok (1, [0]) := by decide +kernel
    obtain ⟨s', h1, h2⟩ := bind_eq_ok.1 h
    have e : runDemux (Demuxer.new "ts" true) (crowd 1) = ok s := hr.2
    rw [h1] at e
    injection e with e
    subst e
    simp only [Go.ok.injEq, Prod.mk.injEq] at h2
    rw [h2.1, h2.2]
    simp
  | succ n ih =>
    rw [crowd_succ] at hr
    obtain ⟨s0, hr0, ho, h1⟩ := reached_snoc hr
    obtain ⟨i1, i2⟩ := ih hr0
    rcases C62_audio_input hr0 ho
      (show s0.onAudioPacket exOracle 0 codecPCMS16LE [1, 2] (45 * ((n + 1 : Nat) : Int)) = ok s from h1) with ⟨_, h2⟩ | ⟨p, cs, _, h3, _, _, _, _, _, _, h4⟩
    · exact absurd i2 h2
    · rw [h3, List.length_append, i1]
      exact ⟨rfl, List.mem_map.2 ⟨_, h4, rfl⟩⟩

/-- **C106**: so the demuxer keeps any number of packets while it probes. -/
theorem C106_unbounded {n : Nat} (hn : n ≤ 2 ^ 40) :
    ∃ s, Reached "ts" true (crowd n) s ∧ s.completed = false ∧ delivered s.calls = [] ∧ s.packets.flatten.length = n := by
  obtain ⟨h1, h2⟩ := crowd_ops n
  obtain ⟨s, hr⟩ := C72_no_key_frames "ts" true (crowd n) (by simp [KnownName]) (fun x hx => by rw [h1 x hx]; exact exOracle_valid)
    (fun x hx => isPacket_only (h2 x hx)) (by
      intro x hx
      unfold crowd at hx
      obtain ⟨i, _, rfl⟩ := List.mem_map.1 hx
      simp [DemuxOp.IsSetsFrame])
  obtain ⟨k1, k2, k3⟩ := C106_never (by simp [KnownName]) _ hr h2 (fun x hx => by rw [h1 x hx]; rfl) (crowd_crowded hn)
  refine ⟨s, hr, k1, k2, ?_⟩
  have hl := k3.length_eq
  rw [List.length_map, List.length_map] at hl
  rw [hl]
  cases n with
  | zero => cases hr.2; rfl
  | succ n => exact (crowd_taken n hr).1

end Avf
