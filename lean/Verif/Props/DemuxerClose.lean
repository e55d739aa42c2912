import Verif.Model.DemuxerLife
import Verif.Props.DemuxerPipe
import Verif.Props.DemuxerTotal
/-!
# C79: demuxers without a handler

`Close` takes the handler away. What the caller may do with a closed demuxer, and what makes it panic.
-/
namespace Avf
open Go

theorem isHandler_eq (cs : List Call) : cs.any Call.isHandler = true ↔ toHandler cs ≠ [] := by
  unfold toHandler
  rw [ne_eq, List.filter_eq_nil_iff, List.any_eq_true]
  constructor
  · rintro ⟨c, hc, h⟩ hn
    refine hn c hc ?_
    cases c <;> first | rfl | cases h
  · intro hn
    by_contra hx
    refine hn fun c hc h => hx ⟨c, hc, ?_⟩
    cases c <;> first | rfl | cases h

theorem Life.oracle_valid {l : Life} {o : Oracle} (ho : o.Valid) : (l.oracle o).Valid := by
  unfold Life.oracle
  split
  · exact ho
  · exact { ho with index := fun _ => rfl, buffer := fun _ => rfl }

open scoped Classical in
/-- An operation without a handler, in terms of the one with a handler. -/
theorem use_closed {name : String} {a : Bool} {h : List (Oracle × DemuxOp)} {l : Life} (hr : Reached name a h l.dem) (hh : l.handler = false)
    {o : Oracle} (ho : o.Valid) (e : DemuxOp) :
    l.step (.use o e) = match e.run (l.oracle o) l.dem with
      | ok d => if toHandler d.calls = toHandler l.dem.calls then ok { l with dem := d } else Go.panic
      | err m => err m
      | Go.panic => Go.panic := by
  simp only [Life.step]
  cases e1 : e.run (l.oracle o) l.dem with
  | err m => rfl
  | panic => rfl
  | ok d =>
    rw [ok_bind]
    dsimp only
    have hm := Demuxer.Micros.grows (Demuxer.run_micros (Life.oracle_valid ho) (Demuxer.Reached.inv hr) e1)
    obtain ⟨cs, hcs⟩ := hm
    rw [← hcs, List.drop_left, Demuxer.toHandler_append]
    by_cases h0 : toHandler cs = []
    · rw [if_neg (fun hx => (isHandler_eq cs).1 hx.2 h0), if_pos (by simp [h0])]; rfl
    · rw [if_pos ⟨by simp [hh], (isHandler_eq cs).2 h0⟩, if_neg (by simpa using h0)]

/-- **C79** without a handler nothing reaches a handler, probing does not end, and the demuxer goes on as if it had one, as long
as no call panics. -/
theorem C79_silent {name : String} {a : Bool} {h : List (Oracle × DemuxOp)} {l l' : Life} {ops : List (Oracle × DemuxOp)}
    (hr : Reached name a h l.dem) (hh : l.handler = false) (hv : ∀ x ∈ ops, x.1.Valid)
    (hrun : l.run (ops.map fun x => .use x.1 x.2) = ok l') :
    toHandler l'.dem.calls = toHandler l.dem.calls ∧ l'.dem.completed = l.dem.completed ∧ l'.handler = false ∧
      Reached name a (h ++ ops.map fun x => (l.oracle x.1, x.2)) l'.dem := by
  induction ops generalizing h l with
  | nil => cases hrun; exact ⟨rfl, rfl, hh, by simpa using hr⟩
  | cons x ops ih =>
    obtain ⟨o, e⟩ := x
    rw [List.map_cons] at hrun
    obtain ⟨l1, h1, hrun⟩ := bind_eq_ok.1 hrun
    have ho : o.Valid := hv (o, e) (List.mem_cons_self ..)
    rw [use_closed hr hh ho] at h1
    split at h1
    · rename_i d e1
      split at h1
      · rename_i hc
        cases h1
        have hr1 : Reached name a (h ++ [(l.oracle o, e)]) d := by
          refine Reached.append hr (fun x hx => ?_) (by show (e.run (l.oracle o) l.dem >>= _) = _; rw [e1]; rfl)
          rw [List.mem_singleton] at hx; subst hx; exact Life.oracle_valid ho
        obtain ⟨i1, i2, i3, i4⟩ := ih (l := { l with dem := d }) hr1 hh (fun x hx => hv x (List.mem_cons_of_mem _ hx)) hrun
        have hsame : d.completed = l.dem.completed := by
          have w0 := (C61_when hr).1
          have w1 := (C61_when hr1).1
          rw [hc] at w1
          cases hd : d.completed <;> cases hl : l.dem.completed <;> simp_all
        refine ⟨i1.trans hc, i2.trans hsame, i3, ?_⟩
        rw [List.append_assoc] at i4
        exact i4
      · cases h1
    · cases h1
    · cases h1

/-- **C79** closed while probing: an operation panics exactly if it panics with a handler or ends probing. -/
theorem C79_probing {name : String} {a : Bool} {h : List (Oracle × DemuxOp)} {l : Life} (hr : Reached name a h l.dem)
    (hh : l.handler = false) (hc : l.dem.completed = false) {o : Oracle} (ho : o.Valid) (e : DemuxOp) :
    l.step (.use o e) = Go.panic ↔
      e.run (l.oracle o) l.dem = Go.panic ∨ ∃ d, e.run (l.oracle o) l.dem = ok d ∧ d.completed = true := by
  rw [use_closed hr hh ho]
  cases e1 : e.run (l.oracle o) l.dem with
  | err m => simp
  | panic => simp
  | ok d =>
    have hr1 : Reached name a (h ++ [(l.oracle o, e)]) d := by
      refine Reached.append hr (fun x hx => ?_) (by show (e.run (l.oracle o) l.dem >>= _) = _; rw [e1]; rfl)
      rw [List.mem_singleton] at hx; subst hx; exact Life.oracle_valid ho
    have w0 := (C61_when hr).1
    have w1 := (C61_when hr1).1
    rw [w0.2 hc]
    dsimp only
    cases hd : d.completed with
    | false => rw [if_pos (w1.2 hd)]; simp [hd]
    | true =>
      rw [if_neg (by rw [w1, hd]; simp)]
      simp [hd]

/-- **C79** closed while probing: `ProbeComplete` always panics. -/
theorem C79_probe_complete {name : String} {a : Bool} {h : List (Oracle × DemuxOp)} {l : Life} (hr : Reached name a h l.dem)
    (hh : l.handler = false) (hc : l.dem.completed = false) {o : Oracle} (ho : o.Valid) :
    l.step (.use o .probeComplete) = Go.panic := by
  rw [C79_probing hr hh hc ho]
  obtain ⟨d, e1, _⟩ := Demuxer.complete_micros (l.oracle o) (Life.oracle_valid ho) (Demuxer.Reached.inv hr)
  exact Or.inr ⟨d, e1, Demuxer.complete_completed (Life.oracle_valid ho) (Demuxer.Reached.inv hr) e1⟩

/-- After probing a packet is given back, or taken and, if its buffer had a packet before, delivers that one. -/
theorem run_after {name : String} {a : Bool} {h : List (Oracle × DemuxOp)} {s : Demuxer} (hr : Reached name a h s)
    (hp : ∀ x ∈ h, x.2.PacketOnly) (hc : s.completed = true) {o : Oracle} (ho : o.Valid) {e : DemuxOp} (he : e.IsPacket) {b : Int} {d : Bytes}
    (hk : e.block = some (b, d)) :
    ∃ s', e.run o s = ok s' ∧ (toHandler s'.calls = toHandler s.calls ↔ ofBuffer b (taken s.calls) = []) := by
  have hi := Demuxer.Reached.inv hr
  have hq := Demuxer.Reached.queues hr (C62_packet_input hr hp)
  obtain ⟨_, _, _, _, _, _, _, h5⟩ := hq.done hc
  have hkn := Demuxer.Reached.takenKnown hr
  have hn := Demuxer.runDemux_injective (s := Demuxer.new name a) (Demuxer.Inv.new name a) hr.1 hp hr.2 List.nodup_nil
  obtain ⟨t0, e0, hk0⟩ := Demuxer.findTrack_known ho hi (b := b)
  -- a packet of a known track
  have live : ∀ p : AVPacket, p.bufferIndex = b → Demuxer.Known s p →
      (toHandler (s.live p).calls = toHandler s.calls ↔ ofBuffer b (taken s.calls) = []) := by
    intro p hpb hkp
    obtain ⟨h0, hlt⟩ := hi.range hkp
    obtain ⟨k, hk'⟩ := Int.eq_ofNat_of_zero_le h0
    have hsame : ofBuffer b (taken s.calls) = ofTrack k (taken s.calls) := by
      unfold ofBuffer ofTrack
      refine List.filter_congr fun q hq => ?_
      have h1 := Demuxer.lookup_mem (hkn q hq)
      have h2 := Demuxer.lookup_mem hkp
      rw [decide_eq_decide]
      constructor
      · intro e
        rw [e, ← hpb] at h1
        have := List.inj_on_of_nodup_map hn h1 h2 rfl
        rw [← hk']; exact (Prod.mk.inj this).1
      · intro e
        have h3 := hkn q hq
        have h4 : s.bufferOf.lookup p.index = some p.bufferIndex := hkp
        have h3 : s.bufferOf.lookup q.index = some q.bufferIndex := h3
        rw [e, ← hk', h4] at h3
        rw [← hpb]; exact (Option.some.inj h3).symm
    rw [hsame]
    have h5k := h5 k
    by_cases hx : ∃ x, s.packets[Demuxer.slot s.packets p]? = some [x]
    · obtain ⟨x, hx⟩ := hx
      have hslot : Demuxer.slot s.packets p = k := by
        have hle : Demuxer.slot s.packets p < s.packets.length := by
          by_contra hge
          rw [List.getElem?_eq_none (by omega)] at hx; cases hx
        unfold Demuxer.slot at hle ⊢
        split at hle
        · rename_i hlt'; rw [if_pos hlt', hk']; rfl
        · omega
      rw [hslot] at hx
      rw [List.getD_eq_getElem?_getD, hx] at h5k
      have hne : ofTrack k (taken s.calls) ≠ [] := by
        intro e0; rw [e0] at h5k; cases h5k
      rw [Demuxer.live_calls (by rw [hslot]; exact hx), Demuxer.toHandler_append, Demuxer.toHandler_append, Demuxer.toHandler_fwd]
      constructor
      · intro e0
        have := congrArg List.length e0
        simp at this
      · intro e0; exact absurd e0 hne
    · rw [Demuxer.live_calls' (by simpa using hx), Demuxer.toHandler_append]
      refine ⟨fun _ => ?_, fun _ => by show _ ++ [] = _; simp⟩
      by_contra hne
      obtain ⟨q, x, e⟩ := (List.eq_nil_or_concat _).resolve_left hne
      rw [e] at h5k
      simp only [List.concat_eq_append, List.getLast?_append, List.getLast?_singleton, Option.some_or, Option.toList_some] at h5k
      have hk2 : s.packets[k]? = some [x] := by
        rw [List.getD_eq_getElem?_getD] at h5k
        cases e' : s.packets[k]? with
        | none => rw [e'] at h5k; cases h5k
        | some r => rw [e'] at h5k; rw [show r = [x] from h5k]
      refine hx ⟨x, ?_⟩
      have hlt' : k < s.packets.length := by
        by_contra hge
        rw [List.getElem?_eq_none (by omega)] at hk2; cases hk2
      have : Demuxer.slot s.packets p = k := by
        unfold Demuxer.slot
        rw [if_pos (by rw [hk']; exact_mod_cast hlt'), hk']; rfl
      rw [this]; exact hk2
  -- no track
  have none : t0 = none → (toHandler (s.call [.discardBack b]).calls = toHandler s.calls ↔ ofBuffer b (taken s.calls) = []) := by
    intro ht
    subst ht
    have hb := Demuxer.findTrack_none ho e0
    refine ⟨fun _ => ?_, fun _ => ?_⟩
    · unfold ofBuffer
      rw [List.filter_eq_nil_iff]
      intro p hp
      simp only [decide_eq_true_eq]
      rintro rfl
      exact hb (List.mem_map.2 ⟨_, Demuxer.lookup_mem (hkn p hp), rfl⟩)
    · show toHandler (_ ++ _) = _
      rw [Demuxer.toHandler_append]; show _ ++ [] = _; simp
  cases e with
  | audioPacket b' id d' ts =>
    obtain ⟨rfl, rfl⟩ : b' = b ∧ d' = d := by simpa [DemuxOp.block] using hk
    simp only [DemuxOp.run, Demuxer.onAudioPacket]
    rw [e0, ok_bind, if_neg (by simp [hc]), ok_bind]
    cases t0 with
    | none => exact ⟨_, rfl, none rfl⟩
    | some u =>
      dsimp only
      have hku : Demuxer.Known s (Demuxer.audioPkt o b' id d' ts u) := hk0 u rfl
      exact ⟨_, Demuxer.process_live o hc hi hku, live _ rfl hku⟩
  | videoPacket b' id d' k dts pts =>
    obtain ⟨rfl, rfl⟩ : b' = b ∧ d' = d := by simpa [DemuxOp.block] using hk
    simp only [DemuxOp.run, Demuxer.onVideoPacket]
    rw [e0, ok_bind, if_neg (by simp [hc]), ok_bind]
    cases t0 with
    | none => exact ⟨_, rfl, none rfl⟩
    | some u =>
      dsimp only
      have hku : Demuxer.Known s (o.preprocess (Demuxer.videoPkt s b' id d' k dts pts u)) := by
        unfold Demuxer.Known; rw [ho.index, ho.buffer]; exact hk0 u rfl
      exact ⟨_, Demuxer.process_live o hc hi hku, live _ (ho.buffer _) hku⟩
  | _ => exact absurd he id

/-- **C79** closed after probing, packet input: a packet makes it panic exactly if a packet was taken from its buffer before. -/
theorem C79_completed {name : String} {a : Bool} {h : List (Oracle × DemuxOp)} {l : Life} (hr : Reached name a h l.dem)
    (hp : ∀ x ∈ h, x.2.PacketOnly) (hh : l.handler = false) (hc : l.dem.completed = true) {o : Oracle} (ho : o.Valid) {e : DemuxOp}
    (he : e.IsPacket) {b : Int} {d : Bytes} (hk : e.block = some (b, d)) :
    (l.step (.use o e) = Go.panic ↔ ofBuffer b (taken l.dem.calls) ≠ []) ∧
    (ofBuffer b (taken l.dem.calls) = [] → ∃ l', l.step (.use o e) = ok l') := by
  obtain ⟨s', e1, hs⟩ := run_after hr hp hc (Life.oracle_valid (l := l) ho) he hk
  rw [use_closed hr hh ho, e1]
  dsimp only
  by_cases hb : ofBuffer b (taken l.dem.calls) = []
  · rw [if_pos (hs.2 hb)]; exact ⟨by simp [hb], fun _ => ⟨_, rfl⟩⟩
  · rw [if_neg (fun e => hb (hs.1 e))]; exact ⟨by simp [hb], fun e => absurd e hb⟩

/-- **C79** with a handler and a callback the model of the life agrees with the model of the operations. -/
theorem C79_open (l : Life) (hh : l.handler = true) (hp : l.preprocess = true) (ops : List (Oracle × DemuxOp)) :
    l.run (ops.map fun x => .use x.1 x.2) = (runDemux l.dem ops >>= fun d => ok { l with dem := d }) := by
  induction ops generalizing l with
  | nil => rfl
  | cons x ops ih =>
    obtain ⟨o, e⟩ := x
    have h1 : l.step (.use o e) = (e.run o l.dem >>= fun d => ok { l with dem := d }) := by
      simp only [Life.step, Life.oracle]
      rw [if_pos hp]
      cases e.run o l.dem with
      | err m => rfl
      | panic => rfl
      | ok d => rw [ok_bind, ok_bind, if_neg (by rw [hh]; simp)]; rfl
    rw [List.map_cons]
    unfold Life.run runDemux
    rw [h1]
    cases e.run o l.dem with
    | err m => rfl
    | panic => rfl
    | ok d => exact ih _ hh hp

/-- Is a handler set after some calls, if `b` says whether there was one before? -/
def handlerAfter (b : Bool) (ops : List LifeOp) : Bool :=
  ops.foldl (fun b x => match x with | .setHandler s => s | .close => false | _ => b) b

/-- Is a callback set? -/
def callbackAfter (b : Bool) (ops : List LifeOp) : Bool :=
  ops.foldl (fun b x => match x with | .setPreprocess s => s | .close => false | _ => b) b

/-- **C79** the handler and the callback are those that were set last, none after `Close`; `Input` of the base demuxer panics. -/
theorem C79_history {l l' : Life} {ops : List LifeOp} (h : l.run ops = ok l') :
    l'.handler = handlerAfter l.handler ops ∧ l'.preprocess = callbackAfter l.preprocess ops ∧ ∀ d, LifeOp.input d ∉ ops := by
  induction ops generalizing l with
  | nil => cases h; exact ⟨rfl, rfl, by simp⟩
  | cons x ops ih =>
    obtain ⟨l1, h1, h2⟩ := bind_eq_ok.1 h
    obtain ⟨i1, i2, i3⟩ := ih h2
    unfold handlerAfter at i1 ⊢
    unfold callbackAfter at i2 ⊢
    rw [List.foldl_cons, List.foldl_cons, i1, i2]
    cases x with
    | use o e =>
      obtain ⟨d, _, h1⟩ := bind_eq_ok.1 h1
      split at h1
      · cases h1
      · cases h1
        exact ⟨rfl, rfl, fun d hd => i3 d (by simpa using hd)⟩
    | input d => cases h1
    | _ => cases h1; exact ⟨rfl, rfl, fun d hd => i3 d (by simpa using hd)⟩

/-- **C79** `Close` takes nothing away but handler and callback: with both set again the demuxer is as before. -/
theorem C79_reopen (l : Life) : l.run [.close, .setHandler l.handler, .setPreprocess l.preprocess] = ok l := rfl

/-- **C79** after `Close` the callback does not see packets: it does not matter what it would do. -/
theorem C79_callback_gone (l : Life) (o : Oracle) (f : AVPacket → AVPacket) (e : DemuxOp) :
    l.run [.close, .use { o with preprocess := f } e] = l.run [.close, .use { o with preprocess := id } e] := by
  have h : ∀ l : Life, l.preprocess = false → l.oracle { o with preprocess := f } = l.oracle { o with preprocess := id } := by
    intro l hl
    simp only [Life.oracle, hl]; rfl
  simp only [Life.run, Life.step, ok_bind, h]

/-- **C79** the exported methods `DiscardBackPacket` and `DiscardHeadPacket` only reach the pipeline. -/
theorem C79_discard (l : Life) (i : Int) :
    (∃ l', l.step (.discardBack i) = ok l' ∧ l'.dem.calls = l.dem.calls ++ [.discardBack i] ∧ l' = { l with dem := { l.dem with calls := l'.dem.calls } }) ∧
    ∃ l', l.step (.discardHead i) = ok l' ∧ l'.dem.calls = l.dem.calls ++ [.discardHead i] ∧ l' = { l with dem := { l.dem with calls := l'.dem.calls } } :=
  ⟨⟨_, rfl, rfl, rfl⟩, ⟨_, rfl, rfl, rfl⟩⟩

example : (do
    let l ← ({ dem := Demuxer.new "ts" true } : Life).run [.setHandler true, .setPreprocess true, .close, .setHandler true,
      .use exOracle (.audioPacket 0 codecPCMS16LE [2] 10), .discardHead 3]
    return [l.handler, l.preprocess] : Go (List Bool)) = ok [true, false] := by decide +kernel

/-- A demuxer that is closed after one packet: while probing it takes another one but cannot end probing; when probing is over
it takes a packet of a new buffer but not another one of the old buffer. -/
example : (runDemux (Demuxer.new "ts" true) [(exOracle, .audioPacket 0 codecPCMS16LE [1] 0)] >>= fun s => s.onProbeComplete exOracle >>= fun s' =>
    ok ((ofBuffer 0 (taken s'.calls)).length, (ofBuffer 1 (taken s'.calls)).length, [s.completed, s'.completed,
      panics (({ dem := s, handler := true } : Life).run [.close, .use exOracle (.audioPacket 0 codecPCMS16LE [2] 10)]),
      panics (({ dem := s, handler := true } : Life).run [.close, .use exOracle .probeComplete]),
      panics (({ dem := s', handler := true } : Life).run [.close, .use exOracle (.audioPacket 1 codecPCMS16LE [2] 10)]),
      panics (({ dem := s', handler := true } : Life).run [.close, .use exOracle (.audioPacket 0 codecPCMS16LE [2] 10)])])) =
    ok (1, 0, [false, true, false, true, false, true]) := by decide +kernel

/-- The hypotheses of `C79_silent`: a packet for a closed demuxer. -/
example : ∃ l', ({ dem := Demuxer.new "ts" true } : Life).run ([(exOracle, .audioPacket 0 codecPCMS16LE [2] 10)].map fun x => .use x.1 x.2) = ok l' ∧
    toHandler l'.dem.calls = [] ∧ l'.dem.completed = false := by
  have h : (({ dem := Demuxer.new "ts" true } : Life).run ([(exOracle, .audioPacket 0 codecPCMS16LE [2] 10)].map fun x => .use x.1 x.2) >>=
    fun l => ok l.dem.completed) = ok false := by decide +kernel
  obtain ⟨l', h1, _⟩ := bind_eq_ok.1 h
  obtain ⟨i1, i2, _⟩ := C79_silent (name := "ts") (a := true) (h := []) (l := { dem := Demuxer.new "ts" true }) ⟨fun _ hx => (by cases hx), rfl⟩ rfl
    (by intro x hx; rw [List.mem_singleton] at hx; subst hx; exact exOracle_valid) h1
  exact ⟨l', h1, i1, i2⟩

/-- **C79** in full: a closed demuxer takes packets without a panic. -/
def C79_claim : Prop :=
  ∀ (name : String) (a : Bool) (h : List (Oracle × DemuxOp)) (l : Life), Reached name a h l.dem → ∀ (o : Oracle), o.Valid →
    ∀ e : DemuxOp, e.IsPacket → ¬ e.IsSetsFrame → l.run [.close, .use o e] ≠ Go.panic

/-- **C79** is false of the code: a packet after `Close` is a nil pointer dereference. -/
theorem C79_claim_violated : ¬ C79_claim := by
  intro hc
  have h : (runDemux (Demuxer.new "ts" true) [(exOracle, .audioPacket 0 codecPCMS16LE [1] 0), (exOracle, .probeComplete)] >>=
    fun s => ok s.completed) = ok true := by decide +kernel
  obtain ⟨s, h1, h2⟩ := bind_eq_ok.1 h
  injection h2 with h2
  have hr : Reached "ts" true [(exOracle, .audioPacket 0 codecPCMS16LE [1] 0), (exOracle, .probeComplete)] s := by
    refine ⟨fun x hx => ?_, h1⟩
    have : x.1 = exOracle := by revert x; simp
    rw [this]; exact exOracle_valid
  refine hc "ts" true _ { dem := s, handler := true } hr exOracle exOracle_valid (.audioPacket 0 codecPCMS16LE [2] 10) trivial id ?_
  have h3 : (runDemux (Demuxer.new "ts" true) [(exOracle, .audioPacket 0 codecPCMS16LE [1] 0), (exOracle, .probeComplete)] >>=
    fun s => ok (panics (({ dem := s, handler := true } : Life).run [.close, .use exOracle (.audioPacket 0 codecPCMS16LE [2] 10)]))) = ok true := by
    decide +kernel
  rw [h1] at h3
  injection h3 with h3
  exact of_panics h3

end Avf
