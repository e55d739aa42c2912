import Verif.Spec.EndToEnd
import Verif.Props.DemuxerSource
import Verif.Props.DemuxerMemory
import Verif.Props.Handler
import Verif.Props.Packet
/-! # Lemmas for C94 -/
namespace Avf
open Go
open Demuxer (Plain)

theorem refusals_append (b : Int) (l l' : List Call) : refusals b (l ++ l') = refusals b l + refusals b l' := by
  induction l with
  | nil => simp [refusals]
  | cons c l ih => cases c <;> simp [refusals, ih, Nat.add_assoc]

theorem refusals_plain {b : Int} {l : List Call} (h : Plain l) : refusals b l = 0 := by
  induction l with
  | nil => rfl
  | cons c l ih =>
    have h1 := ih fun c hc => h c (List.mem_cons_of_mem _ hc)
    have h2 := h c (List.mem_cons_self ..)
    cases c with
    | discardBack b' => exact absurd rfl (h2.2 b')
    | _ => exact h1

/-- A packet that was made of a frame. -/
structure MadeOf (name : String) (f : Frame) (p : AVPacket) : Prop where
  data : p.data = f.data
  dts : p.dts = f.dts
  key : p.key = f.key
  media : p.mediaType = if f.video then mediaVideo else mediaAudio
  pack : f.video = true → p.packetType = ({ name := name, autoFree := false } : Demuxer).getPackType
  fresh : p.dataAnnexB = none
  alloc : p.onBufferAlloc = none

/-- What one operation with a packet does. -/
theorem packet_op {name : String} {a : Bool} {h : List (Oracle × DemuxOp)} {s s' : Demuxer} (hr : Reached name a h s)
    {o : Oracle} (ho : o.Valid) (hid : o.preprocess = id) {e : DemuxOp} (he : e.IsPacket) (h1 : e.run o s = ok s') :
    ∃ (b : Int) (f : Frame), e.frame b = some f ∧ (∀ b', b' ≠ b → e.frame b' = none) ∧
    ((s'.calls = s.calls ++ [.discardBack b] ∧ b ∉ s.bufferOf.map Prod.snd) ∨
     ∃ p cs, s'.calls = s.calls ++ .accepted p :: cs ∧ Plain cs ∧ p.bufferIndex = b ∧ MadeOf name f p) := by
  have hi := Demuxer.Reached.inv hr
  have hn : s.name = name := Demuxer.Reached.name hr
  cases e with
  | audioPacket b cid d ts =>
    refine ⟨b, ⟨false, false, d, ts⟩, by simp [DemuxOp.frame], fun b' hb => by simp [DemuxOp.frame, Ne.symm hb], ?_⟩
    obtain ⟨t, s1, hf, h0, h2⟩ := Demuxer.audio_shape ho hi h1
    cases t with
    | none =>
      refine Or.inl ?_
      rw [h0 rfl]
      cases hf with
      | none hn => exact ⟨rfl, hn⟩
    | some u =>
      obtain ⟨cs, e, hp⟩ := Demuxer.process_adds (h2 u rfl)
      exact Or.inr ⟨Demuxer.audioPkt o b cid d ts u, cs, by rw [e]; simp [Demuxer.call, hf.calls], hp, rfl, rfl, rfl, rfl, rfl,
        fun h => (by cases h), rfl, rfl⟩
  | videoPacket b cid d k dts pts =>
    refine ⟨b, ⟨true, k, d, dts⟩, by simp [DemuxOp.frame], fun b' hb => by simp [DemuxOp.frame, Ne.symm hb], ?_⟩
    obtain ⟨t, s1, hf, h0, h2⟩ := Demuxer.video_shape ho hi h1
    cases t with
    | none =>
      refine Or.inl ?_
      rw [h0 rfl]
      cases hf with
      | none hn => exact ⟨rfl, hn⟩
    | some u =>
      have h3 := h2 u rfl
      rw [hid] at h3
      obtain ⟨cs, e, hp⟩ := Demuxer.process_adds h3
      refine Or.inr ⟨s.videoPkt b cid d k dts pts u, cs, by rw [e]; simp [Demuxer.call, hf.calls], hp, rfl, rfl, rfl, rfl, rfl,
        fun _ => ?_, rfl, rfl⟩
      show s.getPackType = _
      unfold Demuxer.getPackType
      rw [hn]
  | _ => exact absurd he id

/-- Other operations with packets only. -/
theorem other_op {o : Oracle} (ho : o.Valid) {s s' : Demuxer} (hi : Demuxer.Inv s) {e : DemuxOp} (hp : e.PacketOnly) (he : ¬ e.IsPacket)
    (h1 : e.run o s = ok s') : (∀ b, e.frame b = none) ∧ ∃ cs, s'.calls = s.calls ++ cs ∧ Plain cs := by
  refine ⟨fun b => by cases e <;> first | rfl | exact absurd trivial he, ?_⟩
  cases Demuxer.run_shape ho hi h1 with
  | plain cs h hp hb hk => exact ⟨cs, h, hp⟩
  | track b h hn hb => exact absurd hp hn
  | reject b d hk h hb hno => cases e <;> first | exact absurd trivial he | exact absurd hp id | cases hk
  | accept p cs d hk => cases e <;> first | exact absurd trivial he | exact absurd hp id | cases hk

theorem ofBuffer_append (b : Int) (l l' : List AVPacket) : ofBuffer b (l ++ l') = ofBuffer b l ++ ofBuffer b l' := List.filter_append ..

theorem ofBuffer_none {name : String} {a : Bool} {h : List (Oracle × DemuxOp)} {s : Demuxer} (hr : Reached name a h s) {b : Int}
    (hb : b ∉ s.bufferOf.map Prod.snd) : ofBuffer b (taken s.calls) = [] := by
  unfold ofBuffer
  rw [List.filter_eq_nil_iff]
  intro p hp hpb
  have := Demuxer.lookup_mem (Demuxer.Reached.takenKnown hr p hp)
  rw [decide_eq_true_eq] at hpb
  rw [hpb] at this
  exact hb (List.mem_map.2 ⟨_, this, rfl⟩)

/-- The packets taken for a buffer are made of its frames, all but the first, which were refused. -/
theorem taken_frames_aux {name : String} {a : Bool} {l : List (Oracle × DemuxOp)} : ∀ {h : List (Oracle × DemuxOp)} {s s' : Demuxer},
    Reached name a h s → (∀ x ∈ l, x.1.Valid) → (∀ x ∈ l, x.2.PacketOnly) → (∀ x ∈ l, x.1.preprocess = id) → runDemux s l = ok s' →
    ∀ b, refusals b s.calls ≤ (framesOf b h).length → 
      List.Forall₂ (MadeOf name) ((framesOf b h).drop (refusals b s.calls)) (ofBuffer b (taken s.calls)) →
    refusals b s'.calls ≤ (framesOf b (h ++ l)).length ∧
      List.Forall₂ (MadeOf name) ((framesOf b (h ++ l)).drop (refusals b s'.calls)) (ofBuffer b (taken s'.calls)) := by
  induction l with
  | nil =>
    intro h s s' _ _ _ _ h1 b hle hf
    cases h1
    rw [List.append_nil]
    exact ⟨hle, hf⟩
  | cons x l ih =>
    intro h s s' hr hv hp hid h1 b hle hf
    obtain ⟨o, e⟩ := x
    obtain ⟨s1, h2, h3⟩ := bind_eq_ok.1 h1
    have ho := hv _ (List.mem_cons_self ..)
    have hpe := hp _ (List.mem_cons_self ..)
    have hide := hid _ (List.mem_cons_self ..)
    have hr1 : Reached name a (h ++ [(o, e)]) s1 := Reached.append hr (by intro x hx; rw [List.mem_singleton] at hx; subst hx; exact ho) (by
      show (e.run o s >>= _) = _
      rw [h2]; rfl)
    have happ : h ++ (o, e) :: l = (h ++ [(o, e)]) ++ l := by simp
    have hfr : ∀ b, framesOf b (h ++ [(o, e)]) = framesOf b h ++ (e.frame b).toList := by
      intro b
      unfold framesOf
      rw [List.filterMap_append]
      cases hx : e.frame b <;> simp [hx]
    rw [happ]
    have step : refusals b s1.calls ≤ (framesOf b (h ++ [(o, e)])).length ∧
        List.Forall₂ (MadeOf name) ((framesOf b (h ++ [(o, e)])).drop (refusals b s1.calls)) (ofBuffer b (taken s1.calls)) := by
      rw [hfr b]
      by_cases he : e.IsPacket
      · obtain ⟨b0, f, e1, e2, hc⟩ := packet_op hr ho hide he h2
        rcases hc with ⟨hc, hnb⟩ | ⟨p, cs, hc, hpl, hpb, hm⟩
        · rw [hc, refusals_append, Demuxer.taken_append]
          have ht : taken [Call.discardBack b0] = [] := rfl
          rw [ht, List.append_nil]
          by_cases hb : b0 = b
          · subst hb
            rw [e1, ofBuffer_none hr hnb] at *
            have h4 := List.forall₂_nil_right_iff.1 hf
            rw [List.drop_eq_nil_iff] at h4
            have h5 : refusals b0 [Call.discardBack b0] = 1 := by simp [refusals]
            rw [h5]
            constructor
            · simp; omega
            · rw [List.drop_eq_nil_of_le (by simp; omega)]
              exact .nil
          · have h5 : refusals b [Call.discardBack b0] = 0 := by simp [refusals, hb]
            rw [h5, e2 b (Ne.symm hb)]
            simpa using ⟨hle, hf⟩
        · have h5 : refusals b (Call.accepted p :: cs) = 0 := by show refusals b cs = 0; exact refusals_plain hpl
          have h6 : taken (Call.accepted p :: cs) = [p] := by
            have := hpl.taken
            unfold taken at this ⊢
            rw [List.filterMap_cons, this]
          rw [hc, refusals_append, Demuxer.taken_append, h5, h6, ofBuffer_append, Nat.add_zero]
          by_cases hb : b0 = b
          · subst hb
            rw [e1, List.drop_append_of_le_length hle]
            have h7 : ofBuffer b0 [p] = [p] := by simp [ofBuffer, hpb]
            rw [h7]
            exact ⟨by simp; omega, List.rel_append hf (.cons hm .nil)⟩
          · have h7 : ofBuffer b [p] = [] := by simp [ofBuffer, hpb, hb]
            rw [h7, e2 b (Ne.symm hb)]
            simpa using ⟨hle, hf⟩
      · obtain ⟨e1, cs, hc, hpl⟩ := other_op ho (Demuxer.Reached.inv hr) hpe he h2
        rw [hc, refusals_append, Demuxer.taken_append, refusals_plain hpl, hpl.taken, e1 b]
        simpa using ⟨hle, hf⟩
    exact ih hr1 (fun x hx => hv x (List.mem_cons_of_mem _ hx)) (fun x hx => hp x (List.mem_cons_of_mem _ hx))
      (fun x hx => hid x (List.mem_cons_of_mem _ hx)) h3 b step.1 step.2

theorem taken_frames {name : String} {a : Bool} {h : List (Oracle × DemuxOp)} {s : Demuxer} (hr : Reached name a h s)
    (hp : ∀ x ∈ h, x.2.PacketOnly) (hid : ∀ x ∈ h, x.1.preprocess = id) (b : Int) :
    refusals b s.calls ≤ (framesOf b h).length ∧
      List.Forall₂ (MadeOf name) ((framesOf b h).drop (refusals b s.calls)) (ofBuffer b (taken s.calls)) := by
  have := taken_frames_aux (reached_new name a) hr.1 hp hid hr.2 b (Nat.zero_le _) (by
    show List.Forall₂ _ (List.drop _ []) []
    rw [List.drop_nil]; exact .nil)
  rwa [List.nil_append] at this

theorem track_buffer {name : String} {a : Bool} {h : List (Oracle × DemuxOp)} {s : Demuxer} (hr : Reached name a h s)
    (hp : ∀ x ∈ h, x.2.PacketOnly) {i : Nat} {b : Int} (hb : ((i : Int), b) ∈ s.bufferOf) :
    ofTrack i (taken s.calls) = ofBuffer b (taken s.calls) := by
  have hi := Demuxer.Reached.inv hr
  have hn := Demuxer.runDemux_injective (s := Demuxer.new name a) (Demuxer.Inv.new name a) hr.1 hp hr.2 List.nodup_nil
  unfold ofTrack ofBuffer
  refine List.filter_congr fun p hp => ?_
  have hk := Demuxer.lookup_mem (Demuxer.Reached.takenKnown hr p hp)
  rw [decide_eq_decide]
  constructor
  · intro e
    rw [e] at hk
    have := List.inj_on_of_nodup_map hi.nodup hk hb rfl
    exact (Prod.mk.inj this).2
  · intro e
    rw [e] at hk
    have := List.inj_on_of_nodup_map hn hk hb rfl
    exact (Prod.mk.inj this).1

theorem leadByte_unit (x : Bool × Bytes) (hx : Framed x.2) (rest : Bytes) : ∃ a, leadByte (annexUnit x ++ rest) = some a := by
  obtain ⟨l, u⟩ := x
  cases u with
  | nil => exact absurd rfl hx.ne
  | cons a u =>
    refine ⟨a, ?_⟩
    cases l <;> simp [leadByte, annexUnit, code]

theorem leadByte_framed {d : Bytes} (h : WellFramed d) : (∃ a, leadByte d = some a) ∧ d ∉ [[0], [0, 0], [0, 0, 0]] := by
  obtain ⟨xs, hne, hx, rfl⟩ := h
  cases xs with
  | nil => exact absurd rfl hne
  | cons x xs =>
    constructor
    · exact leadByte_unit x (hx x (List.mem_cons_self ..)) _
    · obtain ⟨l, u⟩ := x
      have := (hx _ (List.mem_cons_self ..))
      intro hm
      simp only [List.mem_cons, List.not_mem_nil, or_false] at hm
      cases l <;> simp [annexB, annexUnit, code] at hm

/-- What the file handler makes of a packet. -/
theorem elementary_frame {name : String} {ops : List DemuxOp} {t : AVStream} {f : Frame} {p : AVPacket}
    (hn : name = "ps" ∨ name = "ts" ∨ name = "jt1078") (ht : CameFrom name ops t) (hm : MadeOf name f p)
    (hk : f.video = true → f.key = true → WellFramed f.data) :
    elementary t p = inFile t f ∧ doubled t p = [] ∧ NamedType p.mediaType ∧ (p.mediaType = mediaVideo → ∃ r, avccPacket2AnnexB t p = ok r) := by
  have hpack : f.video = true → p.packetType ≠ packAVCC := by
    intro hv
    rw [hm.pack hv]
    rcases hn with rfl | rfl | rfl <;> decide
  cases hv : f.video with
  | false =>
    have hmed : p.mediaType = mediaAudio := by rw [hm.media, hv]; rfl
    have hne : ¬ p.mediaType = mediaVideo := by rw [hmed]; decide
    refine ⟨?_, ?_, by rw [hmed]; exact ⟨by decide, by decide⟩, fun h => absurd h hne⟩
    · unfold elementary inFile
      rw [if_neg hne, if_neg (by simp [hv]), hm.data]
    · unfold doubled
      rw [if_neg (fun h => hne h.1)]
  | true =>
    have hmed : p.mediaType = mediaVideo := by rw [hm.media, hv]; rfl
    have hpk := hpack hv
    have hdbl : doubled t p = [] := by unfold doubled; rw [if_neg (fun h => hpk h.2.2)]
    have hnt : NamedType p.mediaType := by rw [hmed]; exact ⟨by decide, by decide⟩
    have fin : ∀ q, avccPacket2AnnexB t p = ok (inFile t f, q) → elementary t p = inFile t f ∧ doubled t p = [] ∧ NamedType p.mediaType ∧
        (p.mediaType = mediaVideo → ∃ r, avccPacket2AnnexB t p = ok r) := by
      intro q hq
      refine ⟨?_, hdbl, hnt, fun _ => ⟨_, hq⟩⟩
      unfold elementary
      rw [if_pos hmed, hq]
    cases hkey : f.key with
    | false =>
      refine fin p ?_
      rw [C68_annexB_not_key t p hmed hpk (by rw [hm.key, hkey]) hm.fresh]
      unfold inFile
      rw [if_neg (by simp [hkey]), hm.data]
    | true =>
      have hpkey : p.key = true := by rw [hm.key, hkey]
      obtain ⟨⟨b, hb⟩, hps⟩ := leadByte_framed (hk hv hkey)
      rw [← hm.data] at hb hps
      have plain : prependExtraData t p = ok p → ¬ (t.mediaType = mediaVideo ∧ HasSets t.codecID) → elementary t p = inFile t f ∧
          doubled t p = [] ∧ NamedType p.mediaType ∧ (p.mediaType = mediaVideo → ∃ r, avccPacket2AnnexB t p = ok r) := by
        intro hpre hno
        refine fin p ?_
        unfold avccPacket2AnnexB
        rw [if_neg (by rw [hmed]; simp), if_pos (Or.inl hpk), hpre, ok_bind, hm.fresh]
        unfold inFile
        rw [if_neg (fun h => hno ⟨h.2.2.1, h.2.2.2.1⟩), hm.data]
        rfl
      cases ht with
      | video b' dts pts xs hop hfr htr =>
        obtain ⟨ps, c, h1, h2, h3, h4⟩ := htr.sets
        have hsets : HasSets t.codecID := by
          rcases h4.2 with h | h
          · exact Or.inl h.1
          · exact Or.inr h.1
        have hpm := paramSets_mem h1
        have hwf : WellFramed c.annexBExtraData := by
          refine ⟨ps.map fun u => (true, u), by simpa using hpm.1, ?_, ?_⟩
          · intro x hx
            obtain ⟨u, hu, rfl⟩ := List.mem_map.1 hx
            obtain ⟨y, hy, rfl⟩ := List.mem_map.1 (hpm.2 u hu)
            exact hfr y hy
          · rw [h4.1, withCodes_annexB]
        obtain ⟨⟨a, ha⟩, hcs⟩ := leadByte_framed hwf
        have hdat : t.data = c.annexBExtraData := by rw [h2, h4.1]
        by_cases hab : a = b
        · subst hab
          refine fin p ?_
          rw [C68_annexB_same t p c hmed hpk hm.fresh h3 a hcs hps ha hb]
          unfold inFile
          rw [if_neg (fun h => h.2.2.2.2 (by rw [hdat, ha, ← hm.data, hb])), hm.data]
        · have := C68_annexB_key t p c hmed hpk hsets hpkey hm.fresh h3 a b hcs hps ha hb hab
            (by intro n; unfold AVPacket.allocBuffer; rw [hm.alloc]; simp)
          dsimp only at this
          rw [C68_annexB_default p hm.alloc, List.append_nil] at this
          refine fin { p with dataAnnexB := some (c.annexBExtraData ++ p.data) } ?_
          rw [this]
          unfold inFile
          have hne : leadByte t.data ≠ leadByte f.data := by
            rw [hdat, ha, ← hm.data, hb]
            exact fun h => hab (Option.some.inj h)
          rw [if_pos ⟨hv, hkey, htr.media, hsets, hne⟩, hdat, hm.data]
      | audio b' ts d hop htr =>
        refine plain ?_ (fun h => ?_)
        · unfold prependExtraData
          rw [htr.parameters]
          split <;> rfl
        · rw [htr.media] at h
          exact absurd h.1 (by decide)
      | odd hmt hc =>
        have hno : ¬ HasSets t.codecID := by rw [hc]; decide
        refine plain ?_ (fun h => hno h.2)
        unfold prependExtraData
        rw [if_neg (fun h => hno h.2.1)]

theorem asRead_same (cs : List Call) : asRead cs ((delivered cs).map fun p => some p.data) = cs := by
  induction cs with
  | nil => rfl
  | cons c cs ih =>
    cases c with
    | packet p =>
      have : delivered (Call.packet p :: cs) = p :: delivered cs := rfl
      rw [this, List.map_cons]
      show Call.packet _ :: asRead cs _ = _
      rw [List.tail_cons, ih]
      rfl
    | _ => exact congrArg (List.cons _) ih

theorem forall₂_mem {α β : Type} {R : α → β → Prop} {l : List α} {l' : List β} (h : List.Forall₂ R l l') {b : β} (hb : b ∈ l') :
    ∃ a ∈ l, R a b := by
  induction h with
  | nil => cases hb
  | cons hx _ ih =>
    rcases List.mem_cons.1 hb with rfl | hb
    · exact ⟨_, List.mem_cons_self .., hx⟩
    · obtain ⟨a, ha, hr⟩ := ih hb
      exact ⟨a, List.mem_cons_of_mem _ ha, hr⟩

theorem timed_made {name : String} (l : List AVPacket) : ∀ {fs : List Frame}, List.Forall₂ (MadeOf name) fs l →
    List.Forall₂ (MadeOf name) fs.dropLast (timed l) := by
  induction l with
  | nil => intro fs h; cases h; exact .nil
  | cons p l ih =>
    intro fs h
    cases h with
    | cons h hs =>
      cases l with
      | nil => cases hs; exact .nil
      | cons q l =>
        have := ih hs
        cases hs with
        | cons h' hs => exact .cons ⟨h.1, h.2, h.3, h.4, h.5, h.6, h.7⟩ this

end Avf
