import Verif.Spec.DemuxerLoad
import Verif.Props.DemuxerOrderly
/-! # What is queued of a buffer, bounded by the input -/
namespace Avf
open Go

/-- The packets taken are payloads, in their order. -/
theorem runDemux_payloads {l : List (Oracle × DemuxOp)} : ∀ {s s' : Demuxer}, Demuxer.Inv s → (∀ x ∈ l, x.1.Valid) → KeepsData l →
    runDemux s l = ok s' → ∃ new, taken s'.calls = taken s.calls ++ new ∧
      (new.map fun p => (p.bufferIndex, p.data)).Sublist (payloads l) := by
  induction l with
  | nil => intro s s' _ _ _ h; injection h with h; subst h; exact ⟨[], by simp, by simp [payloads]⟩
  | cons x l ih =>
    intro s s' hi hv hd h
    obtain ⟨o, e⟩ := x
    obtain ⟨s1, h1, h⟩ := bind_eq_ok.1 h
    have ho : o.Valid := hv (o, e) (by simp)
    have hi1 : Demuxer.Inv s1 := hi.micros (Demuxer.runDemux_micros (l := [(o, e)]) hi (by simpa using ho)
      (by show (e.run o s >>= _) = _; rw [h1]; rfl))
    obtain ⟨new, e1, e2⟩ := ih hi1 (fun x hx => hv x (List.mem_cons_of_mem _ hx)) (fun x hx => hd x (List.mem_cons_of_mem _ hx)) h
    have hd0 : ∀ p, (o.preprocess p).data = p.data := hd (o, e) (List.mem_cons_self ..)
    have hcons : ∀ b, e.block = some b → payloads ((o, e) :: l) = b :: payloads l := by
      intro b hb; unfold payloads; rw [List.filterMap_cons_some (f := fun x : Oracle × DemuxOp => x.2.block) (a := (o, e)) hb]
    have hnone : e.block = none → payloads ((o, e) :: l) = payloads l := by
      intro hb; unfold payloads; rw [List.filterMap_cons_none (f := fun x : Oracle × DemuxOp => x.2.block) (a := (o, e)) hb]
    cases Demuxer.run_shape ho hi h1 with
    | plain cs h hp _ hk =>
      refine ⟨new, by rw [e1, h, Demuxer.taken_append, hp.taken, List.append_nil], ?_⟩
      rw [hnone hk]; exact e2
    | track b h _ _ =>
      rcases h with ⟨h, hk⟩ | ⟨d, h, hk⟩
      · exact ⟨new, by rw [e1, h], by rw [hnone hk]; exact e2⟩
      · exact ⟨new, by rw [e1, h, Demuxer.taken_append]; simp [taken], by rw [hcons _ hk]; exact e2.cons _⟩
    | reject b d hk h _ _ =>
      exact ⟨new, by rw [e1, h, Demuxer.taken_append]; simp [taken], by rw [hcons _ hk]; exact e2.cons _⟩
    | accept p cs d hk hd' h hp _ =>
      refine ⟨p :: new, ?_, ?_⟩
      · have : taken (.accepted p :: cs) = p :: taken cs := by simp [taken]
        rw [e1, h, Demuxer.taken_append, this, hp.taken]; simp
      · rw [hcons _ hk, List.map_cons, hd' hd0]
        exact e2.cons_cons _

theorem sum_sublist {α : Type} (f : α → Nat) {l l' : List α} (h : l.Sublist l') : (l.map f).sum ≤ (l'.map f).sum := by
  induction h with
  | slnil => exact Nat.le_refl _
  | cons a _ ih => simp only [List.map_cons, List.sum_cons]; omega
  | cons_cons a _ ih => simp only [List.map_cons, List.sum_cons]; omega

theorem sum_ite_eq (b : Int) (l : List AVPacket) : (l.map fun p => if p.bufferIndex = b then p.data.length else 0).sum =
    ((ofBuffer b l).map fun p => p.data.length).sum := by
  unfold ofBuffer
  induction l with
  | nil => rfl
  | cons p l ih =>
    by_cases h : p.bufferIndex = b
    · rw [List.filter_cons_of_pos (by simpa using h)]
      simp only [List.map_cons, List.sum_cons, if_pos h, ih]
    · rw [List.filter_cons_of_neg (by simpa using h)]
      simp only [List.map_cons, List.sum_cons, if_neg h, ih, Nat.zero_add]

/-- What is queued is not more than what came in. -/
theorem queued_le_input {name : String} {h : List (Oracle × DemuxOp)} {s : Demuxer} (hr : Reached name true h s) (hd : KeepsData h)
    (hw : Waiting s) (b : Int) : queuedBytes b s ≤ inputBytes b h ∧
      ∀ p ∈ ofBuffer b s.packets.flatten, (b, p.data) ∈ payloads h := by
  obtain ⟨new, h1, h2⟩ := runDemux_payloads (Demuxer.Inv.new name true) hr.1 hd hr.2
  rw [show taken (Demuxer.new name true).calls = [] from rfl, List.nil_append] at h1
  have hsub : ((ofBuffer b s.packets.flatten).map bare).Sublist ((ofBuffer b (taken s.calls)).map bare) := by
    rw [hw b]; exact List.drop_sublist _ _
  have hs2 : ((ofBuffer b s.packets.flatten).map fun p => p.data).Sublist ((ofBuffer b (taken s.calls)).map fun p => p.data) := by
    have := hsub.map AVPacket.data
    rw [List.map_map, List.map_map] at this
    exact this
  have hs3 : ((ofBuffer b new).map fun p => (p.bufferIndex, p.data)).Sublist ((payloads h).filter fun x => x.1 = b) := by
    have := h2.filter fun x => decide (x.1 = b)
    rw [List.filter_map] at this
    exact this
  constructor
  · unfold queuedBytes inputBytes
    rw [sum_ite_eq]
    refine Nat.le_trans ?_ (sum_sublist (fun x : Int × Bytes => x.2.length) hs3)
    have := sum_sublist List.length hs2
    rw [List.map_map, List.map_map, h1] at this
    rw [List.map_map]
    exact this
  · intro p hp
    have := hs2.subset (List.mem_map_of_mem (f := fun p : AVPacket => p.data) hp)
    obtain ⟨q, hq, e⟩ := List.mem_map.1 this
    rw [h1] at hq
    have hm := (hs3.subset (List.mem_map_of_mem (f := fun p : AVPacket => (p.bufferIndex, p.data)) hq))
    rw [e] at hm
    have hb : q.bufferIndex = b := by simpa [ofBuffer] using (List.mem_filter.1 hq).2
    rw [hb] at hm
    exact (List.mem_filter.1 hm).1

/-- After probing at most one packet of a buffer is queued. -/
theorem one_waits {name : String} {l1 l2 : List (Oracle × DemuxOp)} {s1 s : Demuxer} (hr1 : Reached name true l1 s1)
    (hr : Reached name true (l1 ++ l2) s) (ho : Orderly s) (hn : (s.bufferOf.map Prod.snd).Nodup) (hc : s1.completed = true) (b : Int) :
    (ofBuffer b s1.packets.flatten).length ≤ 1 := by
  obtain ⟨s1', h1, h2⟩ := runDemux_prefix hr.2
  rw [hr1.2] at h1
  cases h1
  have hv : ∀ x ∈ l2, x.1.Valid := fun x hx => hr.1 x (List.mem_append_right _ hx)
  have hn1 : (s1.bufferOf.map Prod.snd).Nodup := by
    obtain ⟨r, e⟩ := runDemux_bufferOf (Demuxer.Reached.inv hr1) hv h2
    rw [← e, List.map_append] at hn
    exact (List.nodup_append.1 hn).1
  rcases orderly_before hr1 hr ho with ho1 | ⟨hc', _⟩
  · rcases buffer_lane hr1 hn1 b with ⟨k, _, _, e3⟩ | ⟨_, _, e3⟩
    · have hs := orderly_settled hr1 hc ho1
      obtain ⟨_, _, _, _, _, _, h5⟩ := C62_exact hr1 hc
      have h6 := settled_lasts k (lanes (taken s1.calls)) 0 hs
      rw [if_pos (Nat.zero_le _), Nat.sub_zero] at h6
      rw [e3, show s1.packets.flatten = (lanes (taken s1.calls)).flatMap laneLast by rw [h5]; rfl, h6]
      unfold laneLast
      cases ((lanes (taken s1.calls)).getD k []).getLast? <;> simp
    · rw [e3]; simp
  · rw [hc] at hc'; cases hc'

theorem bufferSizes_prefix : ∀ (h : List (Oracle × DemuxOp)) (caps : List Nat), caps <+: bufferSizes caps h := by
  intro h
  induction h with
  | nil => intro caps; exact List.prefix_rfl
  | cons x h ih =>
    intro caps
    obtain ⟨o, e⟩ := x
    unfold bufferSizes
    cases e.block with
    | none => exact ih caps
    | some y =>
      obtain ⟨b, d⟩ := y
      dsimp only
      split
      · exact ih caps
      · exact (List.prefix_append _ _).trans (ih _)

theorem inputBytes_cons {b : Int} {o : Oracle} {e : DemuxOp} {l : List (Oracle × DemuxOp)} {d : Bytes} (hk : e.block = some (b, d)) :
    inputBytes b (l ++ [(o, e)]) = inputBytes b l + d.length := by
  have : payloads (l ++ [(o, e)]) = payloads l ++ [(b, d)] := by
    unfold payloads
    rw [List.filterMap_append, List.filterMap_cons_some (f := fun x : Oracle × DemuxOp => x.2.block) (a := (o, e)) hk]
    rfl
  unfold inputBytes
  rw [this]
  simp

/-- An input is light if there is room for every payload. -/
theorem light_of_room {name : String} {h : List (Oracle × DemuxOp)} {M : Nat → Nat}
    (hM : ∀ (i : Nat) d, ((i : Int), d) ∈ payloads h → d.length ≤ M i)
    (hroom : ∀ (l1 : List (Oracle × DemuxOp)) x l2 s1, h = l1 ++ x :: l2 → runDemux (Demuxer.new name true) l1 = ok s1 →
      ∀ (i : Nat) d, x.2.block = some ((i : Int), d) → queuedBytes i s1 + d.length + 2 * M i ≤ (bufferSizes [] h).getD i 0) :
    ∀ (rest before : List (Oracle × DemuxOp)) (s1 : Demuxer) (caps : List Nat), h = before ++ rest → runDemux (Demuxer.new name true) before = ok s1 →
      bufferSizes caps rest = bufferSizes [] h → UsedInOrder caps.length (payloads rest) → LightInput M caps s1 rest := by
  intro rest
  induction rest with
  | nil => intros; trivial
  | cons x rest ih =>
    intro before s1 caps hh h1 hz hu
    obtain ⟨o, e⟩ := x
    have hnext : ∀ s2, e.run o s1 = ok s2 → runDemux (Demuxer.new name true) (before ++ [(o, e)]) = ok s2 := by
      intro s2 h2
      have : ∀ (l : List (Oracle × DemuxOp)) (s0 : Demuxer), runDemux s0 l = ok s1 → runDemux s0 (l ++ [(o, e)]) = ok s2 := by
        intro l
        induction l with
        | nil => intro s0 h0; injection h0 with h0; subst h0; show (e.run o s0 >>= _) = _; rw [h2]; rfl
        | cons y l ihl =>
          intro s0 h0
          obtain ⟨s3, h3, h0⟩ := bind_eq_ok.1 h0
          show (y.2.run y.1 s0 >>= _) = _
          rw [h3]
          exact ihl s3 h0
      exact this before _ h1
    unfold LightInput
    cases hk : e.block with
    | none =>
      dsimp only
      intro s2 h2
      refine ih (before ++ [(o, e)]) s2 caps (by simp [hh]) (hnext s2 h2) ?_ ?_
      · rw [← hz, bufferSizes, hk]
      · have : payloads ((o, e) :: rest) = payloads rest := by
          unfold payloads; rw [List.filterMap_cons_none (f := fun x : Oracle × DemuxOp => x.2.block) (a := (o, e)) hk]
        rw [this] at hu; exact hu
    | some y =>
      obtain ⟨b, d⟩ := y
      dsimp only
      have hp : payloads ((o, e) :: rest) = (b, d) :: payloads rest := by
        unfold payloads; rw [List.filterMap_cons_some (f := fun x : Oracle × DemuxOp => x.2.block) (a := (o, e)) hk]
      rw [hp] at hu
      obtain ⟨hb0, hb1, hu⟩ := hu
      obtain ⟨i, rfl⟩ := Int.eq_ofNat_of_zero_le hb0
      have hz' : bufferSizes (if (i : Int) < caps.length then caps else caps ++ [if e.isVideo then 2097152 else 576000]) rest = bufferSizes [] h := by
        rw [← hz, bufferSizes, hk]
      have hcaps : i < caps.length ∧ (if (i : Int) < caps.length then caps else caps ++ [if e.isVideo then 2097152 else 576000]) = caps ∨
          i = caps.length ∧ (if (i : Int) < caps.length then caps else caps ++ [if e.isVideo then 2097152 else 576000]) =
            caps ++ [if e.isVideo then 2097152 else 576000] := by
        by_cases hi : (i : Int) < caps.length
        · exact Or.inl ⟨by omega, if_pos hi⟩
        · exact Or.inr ⟨by omega, if_neg hi⟩
      have hlen : UsedInOrder (if (i : Int) < caps.length then caps else caps ++ [if e.isVideo then 2097152 else 576000]).length (payloads rest) := by
        by_cases hi : (i : Int) < caps.length
        · rw [if_pos hi] at hu ⊢; exact hu
        · rw [if_neg hi] at hu ⊢; simpa using hu
      generalize (if (i : Int) < caps.length then caps else caps ++ [if e.isVideo then 2097152 else 576000]) = caps' at hz' hcaps hlen
      have hlt : i < caps'.length := by
        rcases hcaps with ⟨h1, rfl⟩ | ⟨h1, rfl⟩
        · exact h1
        · simp; omega
      have hget : (bufferSizes [] h).getD i 0 = caps'[i] := by
        have := bufferSizes_prefix rest caps'
        rw [hz'] at this
        obtain ⟨r, e⟩ := this
        rw [← e, List.getD_eq_getElem?_getD, List.getElem?_append_left hlt, List.getElem?_eq_getElem hlt]
        rfl
      have hpm : ((i : Int), d) ∈ payloads h := by
        rw [hh]; unfold payloads
        exact List.mem_filterMap.2 ⟨(o, e), by simp, hk⟩
      refine ⟨i, caps'[i], caps', rfl, hcaps, List.getElem?_eq_getElem hlt, hM i d hpm, ?_, ?_⟩
      · rw [← hget]
        exact hroom before (o, e) rest s1 hh h1 i d hk
      · intro s2 h2
        exact ih (before ++ [(o, e)]) s2 caps' (by simp [hh]) (hnext s2 h2) hz' hlen

/-- What is queued of a buffer, if it is not more than `n` payloads. -/
theorem queued_le_mul {s : Demuxer} {b : Int} {n M : Nat}
    (hm : ∀ p ∈ ofBuffer b s.packets.flatten, p.data.length ≤ M) (hl : (ofBuffer b s.packets.flatten).length ≤ n) : queuedBytes b s ≤ n * M := by
  unfold queuedBytes
  rw [sum_ite_eq]
  generalize ofBuffer b s.packets.flatten = l at hm hl
  refine Nat.le_trans ?_ (Nat.mul_le_mul_right M hl)
  clear hl
  induction l with
  | nil => simp
  | cons p l ih =>
    have h1 := hm p (by simp)
    have h2 := ih fun q hq => hm q (List.mem_cons_of_mem _ hq)
    simp only [List.map_cons, List.sum_cons, List.length_cons, Nat.add_mul]
    omega

theorem payloads_left {l1 l2 : List (Oracle × DemuxOp)} {x : Int × Bytes} (h : x ∈ payloads l1) : x ∈ payloads (l1 ++ l2) := by
  obtain ⟨y, hy, e⟩ := List.mem_filterMap.1 h
  exact List.mem_filterMap.2 ⟨y, List.mem_append_left _ hy, e⟩

/-- After probing, what waits of a buffer is not more than one payload. -/
theorem queued_after {name : String} {l1 l2 : List (Oracle × DemuxOp)} {s1 s : Demuxer} {M : Nat → Nat} (hr1 : Reached name true l1 s1)
    (hr : Reached name true (l1 ++ l2) s) (ho : Orderly s) (hn : (s.bufferOf.map Prod.snd).Nodup) (hd : KeepsData (l1 ++ l2))
    (hM : ∀ (i : Nat) d, ((i : Int), d) ∈ payloads (l1 ++ l2) → d.length ≤ M i) (hc : s1.completed = true) (i : Nat) : queuedBytes i s1 ≤ M i := by
  have hw : Waiting s1 := orderly_waiting hr1 hr ho hn
  obtain ⟨_, q2⟩ := queued_le_input hr1 (fun x hx => hd x (List.mem_append_left _ hx)) hw i
  have := queued_le_mul (n := 1) (fun p hp => hM i p.data (payloads_left (q2 p hp))) (one_waits hr1 hr ho hn hc i)
  omega

/-- A modest input is light. -/
theorem modest_light {name : String} {h : List (Oracle × DemuxOp)} {s : Demuxer} {M : Nat → Nat} (hr : Reached name true h s)
    (ho : Orderly s) (hn : (s.bufferOf.map Prod.snd).Nodup) (hd : KeepsData h) (hm : ModestInput M name h) :
    LightInput M [] (Demuxer.new name true) h := by
  refine light_of_room (fun i d hi => (hm.payload i d hi).1) ?_ h [] _ [] rfl rfl rfl hm.inOrder
  intro l1 x l2 s1 hh h1 i d hk
  have hr1 : Reached name true l1 s1 := ⟨fun y hy => hr.1 y (by rw [hh]; exact List.mem_append_left _ hy), h1⟩
  obtain ⟨o, e⟩ := x
  have hpm : ((i : Int), d) ∈ payloads h := by
    rw [hh]; unfold payloads
    exact List.mem_filterMap.2 ⟨(o, e), by simp, hk⟩
  obtain ⟨hM, h4⟩ := hm.payload i d hpm
  cases hc : s1.completed with
  | false =>
    have := hm.probing l1 (o, e) l2 s1 hh h1 hc i d hk
    rw [inputBytes_cons hk] at this
    have hw : Waiting s1 := orderly_waiting hr1 (hh ▸ hr) ho hn
    obtain ⟨q1, _⟩ := queued_le_input hr1 (fun y hy => hd y (by rw [hh]; exact List.mem_append_left _ hy)) hw i
    omega
  | true =>
    have := queued_after (M := M) hr1 (hh ▸ hr) ho hn (hh ▸ hd) (fun j d' hj => (hm.payload j d' (hh ▸ hj)).1) hc i
    omega

end Avf
