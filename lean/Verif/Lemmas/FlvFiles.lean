import Verif.Spec.FlvFiles
import Verif.Lemmas.EndToEnd
import Verif.Props.DemuxerTypes
import Verif.Props.Codec
import Verif.Props.RecordLists
import Verif.Props.DemuxerSettled
/-! # Lemmas for C99 -/
namespace Avf
open Go
open Demuxer (Plain)

/-- What one operation with a packet does. -/
theorem packet_given {name : String} {a : Bool} {h : List (Oracle × DemuxOp)} {s s' : Demuxer} (hr : Reached name a h s)
    {o : Oracle} (ho : o.Valid) (hid : o.preprocess = id) {e : DemuxOp} (he : e.IsPacket) (h1 : e.run o s = ok s') :
    ∃ (b : Int) (f : Given), e.given b = some f ∧ (∀ b', b' ≠ b → e.given b' = none) ∧
    ((s'.calls = s.calls ++ [.discardBack b] ∧ b ∉ s'.bufferOf.map Prod.snd ∧ b ∉ s.bufferOf.map Prod.snd) ∨
     ∃ p cs, s'.calls = s.calls ++ .accepted p :: cs ∧ Plain cs ∧ p.bufferIndex = b ∧ MadeFrom name f p) := by
  have hi := Demuxer.Reached.inv hr
  have hn : s.name = name := Demuxer.Reached.name hr
  cases e with
  | audioPacket b cid d ts =>
    refine ⟨b, ⟨⟨false, false, d, ts⟩, cid, ts⟩, by simp [DemuxOp.given], fun b' hb => by simp [DemuxOp.given, Ne.symm hb], ?_⟩
    obtain ⟨t, s1, hf, h0, h2⟩ := Demuxer.audio_shape ho hi h1
    cases t with
    | none =>
      refine Or.inl ?_
      rw [h0 rfl]
      cases hf with
      | none hn => exact ⟨rfl, hn, hn⟩
    | some u =>
      obtain ⟨cs, e, hp⟩ := Demuxer.process_adds (h2 u rfl)
      exact Or.inr ⟨Demuxer.audioPkt o b cid d ts u, cs, by rw [e]; simp [Demuxer.call, hf.calls], hp, rfl, rfl, rfl, rfl, rfl, rfl, rfl,
        fun h => (by cases h), rfl, rfl⟩
  | videoPacket b cid d k dts pts =>
    refine ⟨b, ⟨⟨true, k, d, dts⟩, cid, pts⟩, by simp [DemuxOp.given], fun b' hb => by simp [DemuxOp.given, Ne.symm hb], ?_⟩
    obtain ⟨t, s1, hf, h0, h2⟩ := Demuxer.video_shape ho hi h1
    cases t with
    | none =>
      refine Or.inl ?_
      rw [h0 rfl]
      cases hf with
      | none hn => exact ⟨rfl, hn, hn⟩
    | some u =>
      have h3 := h2 u rfl
      rw [hid] at h3
      obtain ⟨cs, e, hp⟩ := Demuxer.process_adds h3
      refine Or.inr ⟨s.videoPkt b cid d k dts pts u, cs, by rw [e]; simp [Demuxer.call, hf.calls], hp, rfl, rfl, rfl, rfl, rfl, rfl, rfl,
        fun _ => ?_, rfl, rfl⟩
      show s.getPackType = _
      unfold Demuxer.getPackType
      rw [hn]
  | _ => exact absurd he id

theorem taken_backCall (b : Int) (e : Option Bytes) : taken (backCall b e) = [] := by
  unfold backCall
  split <;> rfl

/-- Other operations take no packets. -/
theorem other_given {name : String} {a : Bool} {h : List (Oracle × DemuxOp)} {s s' : Demuxer} (hr : Reached name a h s)
    {o : Oracle} (ho : o.Valid) {e : DemuxOp} (he : ¬ e.IsPacket)
    (h1 : e.run o s = ok s') : (∀ b, e.given b = none) ∧ taken s'.calls = taken s.calls := by
  refine ⟨fun b => by cases e <;> first | rfl | exact absurd trivial he, ?_⟩
  have plain : e.PacketOnly → taken s'.calls = taken s.calls := by
    intro hp
    obtain ⟨_, cs, hc, hpl⟩ := other_op ho (Demuxer.Reached.inv hr) hp he h1
    rw [hc, Demuxer.taken_append, hpl.taken, List.append_nil]
  have only : ∀ b ex, s'.calls = s.calls ++ backCall b ex → taken s'.calls = taken s.calls := by
    intro b ex hc
    rw [hc, Demuxer.taken_append, taken_backCall, List.append_nil]
  cases e with
  | newAudioTrack b id tb ex c =>
    simp only [DemuxOp.run] at h1
    obtain ⟨⟨t, s1⟩, h2, h3⟩ := bind_eq_ok.1 h1
    cases h3
    have := C75_audio hr h2
    split at this
    · exact only b ex (by rw [this.2])
    · obtain ⟨u, _, hap, _⟩ := this
      exact only b ex (by rw [hap.2])
  | newVideoTrack b id tb ex =>
    simp only [DemuxOp.run] at h1
    obtain ⟨⟨t, s1⟩, h2, h3⟩ := bind_eq_ok.1 h1
    cases h3
    have := C75_video hr h2
    split at this
    · exact only b ex (by rw [this.2])
    · obtain ⟨u, _, hap, _⟩ := this
      exact only b ex (by rw [hap.2])
  | _ => exact plain trivial

theorem givenOf_append (b : Int) (h l : List (Oracle × DemuxOp)) : givenOf b (h ++ l) = givenOf b h ++ givenOf b l :=
  List.filterMap_append ..

theorem givenOf_single (b : Int) (x : Oracle × DemuxOp) : givenOf b [x] = (x.2.given b).toList := by
  unfold givenOf
  cases hx : x.2.given b <;> simp [hx]

/-- The packets taken for a buffer, in terms of what was given since it had no track. -/
def TakenSince (name : String) (a : Bool) (b : Int) (h : List (Oracle × DemuxOp)) (s : Demuxer) : Prop :=
  ∃ h1 h2 s1, h = h1 ++ h2 ∧ Reached name a h1 s1 ∧ b ∉ s1.bufferOf.map Prod.snd ∧
    List.Forall₂ (MadeFrom name) (givenOf b h2) (ofBuffer b (taken s.calls))

theorem taken_since_aux {name : String} {a : Bool} {b : Int} {l : List (Oracle × DemuxOp)} : ∀ {h : List (Oracle × DemuxOp)} {s s' : Demuxer},
    Reached name a h s → (∀ x ∈ l, x.1.Valid) → (∀ x ∈ l, x.1.preprocess = id) → runDemux s l = ok s' →
    TakenSince name a b h s → TakenSince name a b (h ++ l) s' := by
  induction l with
  | nil =>
    intro h s s' _ _ _ h1 ht
    cases h1
    rw [List.append_nil]
    exact ht
  | cons x l ih =>
    intro h s s' hr hv hid h1 ht
    obtain ⟨o, e⟩ := x
    obtain ⟨s1, h2, h3⟩ := bind_eq_ok.1 h1
    have ho := hv _ (List.mem_cons_self ..)
    have hide := hid _ (List.mem_cons_self ..)
    have hr1 : Reached name a (h ++ [(o, e)]) s1 := Reached.append hr (by intro x hx; rw [List.mem_singleton] at hx; subst hx; exact ho) (by
      show (e.run o s >>= _) = _
      rw [h2]; rfl)
    have happ : h ++ (o, e) :: l = (h ++ [(o, e)]) ++ l := by simp
    rw [happ]
    refine ih hr1 (fun x hx => hv x (List.mem_cons_of_mem _ hx)) (fun x hx => hid x (List.mem_cons_of_mem _ hx)) h3 ?_
    obtain ⟨p1, p2, s0, rfl, hr0, hb0, hf⟩ := ht
    -- nothing happens for `b`
    have same : e.given b = none → ofBuffer b (taken s1.calls) = ofBuffer b (taken s.calls) → TakenSince name a b (p1 ++ p2 ++ [(o, e)]) s1 := by
      intro hg hts
      refine ⟨p1, p2 ++ [(o, e)], s0, List.append_assoc .., hr0, hb0, ?_⟩
      rw [givenOf_append, givenOf_single, hg, hts]
      simpa using hf
    by_cases he : e.IsPacket
    · obtain ⟨b0, f, e1, e2, hc⟩ := packet_given hr ho hide he h2
      rcases hc with ⟨hc, hnb, hnb'⟩ | ⟨p, cs, hc, hpl, hpb, hm⟩
      · have hts : taken s1.calls = taken s.calls := by rw [hc, Demuxer.taken_append]; exact List.append_nil _
        by_cases hb : b0 = b
        · subst hb
          refine ⟨p1 ++ p2 ++ [(o, e)], [], s1, by simp, hr1, hnb, ?_⟩
          rw [hts, ofBuffer_none hr hnb']
          exact .nil
        · exact same (e2 b (Ne.symm hb)) (by rw [hts])
      · have h6 : taken (Call.accepted p :: cs) = [p] := by
          have := hpl.taken
          unfold taken at this ⊢
          rw [List.filterMap_cons, this]
        have hts : taken s1.calls = taken s.calls ++ [p] := by rw [hc, Demuxer.taken_append, h6]
        by_cases hb : b0 = b
        · subst hb
          refine ⟨p1, p2 ++ [(o, e)], s0, List.append_assoc .., hr0, hb0, ?_⟩
          rw [givenOf_append, givenOf_single, hts, ofBuffer_append]
          have h7 : ofBuffer b0 [p] = [p] := by simp [ofBuffer, hpb]
          rw [h7]
          show List.Forall₂ _ (_ ++ (e.given b0).toList) _
          rw [e1]
          exact List.rel_append hf (.cons hm .nil)
        · have h7 : ofBuffer b [p] = [] := by simp [ofBuffer, hpb, hb]
          exact same (e2 b (Ne.symm hb)) (by rw [hts, ofBuffer_append, h7, List.append_nil])
    · obtain ⟨e1, hts⟩ := other_given hr ho he h2
      exact same (e1 b) (by rw [hts])

theorem taken_since {name : String} {a : Bool} {h : List (Oracle × DemuxOp)} {s : Demuxer} (hr : Reached name a h s)
    (hid : ∀ x ∈ h, x.1.preprocess = id) (b : Int) : TakenSince name a b h s := by
  have := taken_since_aux (b := b) (reached_new name a) hr.1 hid hr.2
    ⟨[], [], _, rfl, reached_new name a, by simp [Demuxer.new], .nil⟩
  rwa [List.nil_append] at this

theorem track_lane {name : String} {a : Bool} {h : List (Oracle × DemuxOp)} {s : Demuxer} (hr : Reached name a h s)
    (hn : (s.bufferOf.map Prod.snd).Nodup) {i : Nat} {b : Int} (hb : ((i : Int), b) ∈ s.bufferOf) :
    ofTrack i (taken s.calls) = ofBuffer b (taken s.calls) := by
  have hi := Demuxer.Reached.inv hr
  unfold ofTrack ofBuffer
  refine List.filter_congr fun p hp => ?_
  have hk := Demuxer.lookup_mem (Demuxer.Reached.takenKnown hr p hp)
  rw [decide_eq_decide]
  constructor
  · intro e
    rw [e] at hk
    have := List.inj_on_of_nodup_map hi.nodup hk hb rfl
    exact (Prod.mk.inj this).2
  · intro e
    rw [e] at hk
    have := List.inj_on_of_nodup_map hn hk hb rfl
    exact (Prod.mk.inj this).1

theorem timed_given {name : String} (l : List AVPacket) : ∀ {fs : List Given}, List.Forall₂ (MadeFrom name) fs l →
    List.Forall₂ (MadeFrom name) fs.dropLast (timed l) := by
  induction l with
  | nil => intro fs h; cases h; exact .nil
  | cons p l ih =>
    intro fs h
    cases h with
    | cons h hs =>
      cases l with
      | nil => cases hs; exact .nil
      | cons q l =>
        have := ih hs
        cases hs with
        | cons h' hs => exact .cons ⟨h.1, h.2, h.3, h.4, h.5, h.6, h.7, h.8, h.9⟩ this

theorem MadeFrom.bare {name : String} {g : Given} {p q : AVPacket} (h : MadeFrom name g p) (e : Avf.bare q = Avf.bare p) : MadeFrom name g q := by
  have e' := AVPacket.mk.inj e
  obtain ⟨e1, e2, e3, _, e5, _, _, _, _, e10, e11, e12, _, e14, e15⟩ := e'
  exact ⟨e1.trans h.1, e3.trans h.2, e2.trans h.3, e5.trans h.4, e11.trans h.5, e10.trans h.6, fun hv => e12.trans (h.7 hv), e14.trans h.8,
    e15.trans h.9⟩

theorem given_bare {name : String} : ∀ {gs : List Given} {l l' : List AVPacket}, List.Forall₂ (MadeFrom name) gs l → l'.map bare = l.map bare →
    List.Forall₂ (MadeFrom name) gs l' := by
  intro gs l l' h
  induction h generalizing l' with
  | nil => intro e; rw [List.map_nil, List.map_eq_nil_iff] at e; subst e; exact .nil
  | cons hm _ ih =>
    intro e
    rw [List.map_cons] at e
    obtain ⟨q, l'', rfl, e1, e2⟩ := List.map_eq_cons_iff.1 e
    exact .cons (hm.bare e1) (ih e2)

theorem given_split {name : String} {l' : List AVPacket} : ∀ {gs : List Given} {l : List AVPacket}, List.Forall₂ (MadeFrom name) gs (l ++ l') →
    ∃ fs rest, gs = fs ++ rest ∧ List.Forall₂ (MadeFrom name) fs l ∧ rest.length = l'.length := by
  intro gs l
  induction l generalizing gs with
  | nil => intro h; exact ⟨[], gs, rfl, .nil, h.length_eq⟩
  | cons p l ih =>
    intro h
    cases h with
    | cons hm hs =>
      obtain ⟨fs, rest, rfl, h1, h2⟩ := ih hs
      exact ⟨_ :: fs, rest, rfl, .cons hm h1, h2⟩

/-- There are at most as many queues as tracks. -/
theorem Demuxer.Micros.queues_le {s s' : Demuxer} (m : Demuxer.Micros s s') (hi : Demuxer.Inv s) (h : s.packets.length ≤ s.tracks.tracks.length) :
    s'.packets.length ≤ s'.tracks.tracks.length := by
  induction m with
  | refl => exact h
  | @tail u v m1 m ih =>
    cases m with
    | register t b hc ht => simp only [List.length_append, List.length_singleton]; omega
    | probing p hc hk =>
      have := (hi.micros m1).range hk
      dsimp only
      unfold Demuxer.push
      split
      · rw [List.length_modify]; exact ih
      · rw [List.length_append, List.length_singleton]; omega
    | live p hc hk =>
      have := (hi.micros m1).range hk
      unfold Demuxer.live
      split
      · rw [List.length_set]; exact ih
      · dsimp only
        unfold Demuxer.push
        split
        · rw [List.length_modify]; exact ih
        · rw [List.length_append, List.length_singleton]; omega
    | done ts rs hc ht hts hp hs =>
      have := hts.length_eq
      show (List.map _ _).length ≤ ts.length
      rw [List.length_map]; omega
    | _ => exact ih

theorem held_le {name : String} {a : Bool} {h : List (Oracle × DemuxOp)} {s : Demuxer} (hr : Reached name a h s) (hc : s.completed = true) :
    s.packets.flatten.length ≤ s.tracks.tracks.length := by
  have h1 := (Demuxer.Reached.micros hr).queues_le (Demuxer.Inv.new name a) (Nat.le_refl 0)
  have h2 := (Demuxer.Reached.inv hr).short hc
  refine Nat.le_trans ?_ h1
  generalize s.packets = qs at h2
  clear h1
  induction qs with
  | nil => exact Nat.le_refl 0
  | cons q qs ih =>
    have := h2 q (List.mem_cons_self ..)
    have := ih fun q hq => h2 q (List.mem_cons_of_mem _ hq)
    rw [List.flatten_cons, List.length_append, List.length_cons]
    omega

/-- What is delivered of what was given, in an orderly history. -/
theorem delivered_given {name : String} {a : Bool} {h : List (Oracle × DemuxOp)} {s : Demuxer} (hr : Reached name a h s)
    (hc : s.completed = true) (ho : Orderly s) {i : Nat} (hd : (ofTrack i (taken s.calls)).Pairwise fun a b => a.dts < b.dts)
    {gs : List Given} (hm : List.Forall₂ (MadeFrom name) gs (ofTrack i (taken s.calls))) :
    ∃ fs, ButLast gs fs ∧ (FirstsInOrder (taken s.calls) → fs = gs.dropLast) ∧ List.Forall₂ (MadeFrom name) fs (ofTrack i (delivered s.calls)) := by
  obtain ⟨h1, h2, h3⟩ := C63_orderly hr hc ho i hd
  obtain ⟨fs, rest, rfl, h4, h5⟩ := given_split (given_bare hm h1)
  have hl := hm.length_eq
  refine ⟨fs, ?_⟩
  match hq : s.packets.getD i [] with
  | [] =>
    rw [hq] at h5
    obtain rfl : rest = [] := List.length_eq_zero_iff.1 h5
    obtain ⟨h6, h7⟩ := h3 hq
    rw [List.append_nil] at hl ⊢
    refine ⟨Or.inr ⟨rfl, by omega⟩, fun hf => ?_, h4⟩
    rw [h7 hf] at hl
    rw [List.length_eq_zero_iff.1 hl]; rfl
  | [x] =>
    rw [hq] at h5
    obtain ⟨y, rfl⟩ := List.length_eq_one_iff.1 h5
    rw [List.dropLast_concat]
    exact ⟨Or.inl (by rw [List.dropLast_concat]), fun _ => rfl, h4⟩
  | x :: y :: r => rw [hq] at h2; simp at h2

theorem session_tracks : ∀ {l l' : List AVStream} {x : List AVPacket} {y : List Call},
    sessionCalls l x = l'.map .newTrack ++ .trackComplete :: y → l = l' := by
  intro l
  induction l with
  | nil =>
    intro l' x y e
    cases l' with
    | nil => rfl
    | cons t l' => cases e
  | cons t l ih =>
    intro l' x y e
    cases l' with
    | nil => cases e
    | cons t' l' =>
      simp only [sessionCalls, List.map_cons, List.cons_append, List.cons.injEq, Call.newTrack.injEq] at e
      rw [e.1, ih (l' := l') (x := x) e.2]

/-- Tracks are audio or video. -/
theorem track_types {name : String} {a : Bool} {h : List (Oracle × DemuxOp)} {s : Demuxer} (hr : Reached name a h s) :
    ∀ t ∈ s.tracks.tracks, t.mediaType = mediaAudio ∨ t.mediaType = mediaVideo := by
  refine Demuxer.runDemux_tracks (s := Demuxer.new name a) ?_ ?_ (by intro t ht; cases ht) hr.2
  · intro x y hf hx
    obtain ⟨_, e2, _⟩ := hf.fields
    rw [e2]; exact hx
  · rintro ⟨o, e⟩ _ s1 u _ _ hu
    cases hu with
    | audio b id d ts tb skip ex c u hx htb hu => obtain ⟨c', rfl, _⟩ := hu; exact Or.inl rfl
    | video b id d ex k dts pts tb u hk hx htb hu => obtain ⟨c', _, rfl⟩ := hu; exact Or.inr rfl
    | newAudio b id tb ex c u hu => obtain ⟨c', rfl, _⟩ := hu; exact Or.inl rfl
    | newVideo b id tb ex u hu => obtain ⟨c', _, rfl⟩ := hu; exact Or.inr rfl

/-- In FLV video tracks are announced. -/
theorem flv_tracks {a : Bool} {h : List (Oracle × DemuxOp)} {s : Demuxer} (hr : Reached "flv" a h s) :
    ∀ t ∈ s.tracks.tracks, Announced (h.map Prod.snd) t := by
  refine Demuxer.runDemux_tracks (s := Demuxer.new "flv" a) ?_ ?_ (by intro t ht; cases ht) hr.2
  · intro x y hf hx
    obtain ⟨e1, e2, e3, e4, e5, _⟩ := hf.fields
    cases hx with
    | video b e hm ht hd hc => exact .video b e (by rw [e1, e3]; exact hm) (by rw [e2]; exact ht) (by rw [e4]; exact hd) (by rw [e1, e4, e5]; exact hc)
    | audio ht => exact .audio (by rw [e2]; exact ht)
  · rintro ⟨o, e⟩ hx s1 u hn _ hu
    have hmem : e ∈ h.map Prod.snd := List.mem_map_of_mem (f := Prod.snd) hx
    have hn : s1.name = "flv" := hn
    have hk' : s1.getPackType = packAVCC := by unfold Demuxer.getPackType; rw [if_pos hn]
    cases hu with
    | audio b id d ts tb skip ex c u hx htb hu => obtain ⟨c', rfl, _⟩ := hu; exact .audio rfl
    | video b id d ex k dts pts tb u hk hx htb hu => rw [hk'] at hk; exact absurd hk (by decide)
    | newAudio b id tb ex c u hu => obtain ⟨c', rfl, _⟩ := hu; exact .audio rfl
    | newVideo b id tb ex u hu =>
      obtain ⟨c', hg, rfl⟩ := hu
      rw [hk'] at hg
      exact .video b ex hmem rfl rfl ⟨_, _, hg⟩

theorem ButLast.mem {gs fs : List Given} (h : ButLast gs fs) {g : Given} (hg : g ∈ fs) : g ∈ gs := by
  rcases h with rfl | ⟨rfl, _⟩
  · exact (List.dropLast_sublist _).subset hg
  · exact hg

/-- Packets one by one. -/
theorem flv_outputs {name : String} {b : Int} {h h1 h2 : List (Oracle × DemuxOp)} {gs : List Given} {ps : List AVPacket} {f : AVPacket → Bytes}
    {R : Given → Bytes → Prop} (e : h = h1 ++ h2) (hb : ButLast (givenOf b h2) gs) (hm : List.Forall₂ (MadeFrom name) gs ps)
    (hR : ∀ g ∈ givenOf b h, ∀ p, MadeFrom name g p → R g (f p)) : List.Forall₂ R gs (ps.map f) := by
  have hsub : ∀ g ∈ gs, g ∈ givenOf b h := by
    intro g hg
    rw [e, givenOf_append]
    exact List.mem_append_right _ (hb.mem hg)
  clear hb
  induction hm with
  | nil => exact .nil
  | @cons g p gs ps hgp _ ih =>
    exact .cons (hR g (hsub g (List.mem_cons_self ..)) p hgp) (ih fun g hg => hsub g (List.mem_cons_of_mem _ hg))

theorem flv_sound_packet {t : AVStream} {g : Given} {p : AVPacket} (hm : MadeFrom "flv" g p) (hgv : g.video = false) :
    doubled t p ++ elementary t p = g.data := by
  have hmed : p.mediaType ≠ mediaVideo := by rw [hm.media, hgv]; decide
  have h1 : doubled t p = [] := by unfold doubled; rw [if_neg (fun h => hmed h.1)]
  have h2 : elementary t p = g.data := by unfold elementary; rw [if_neg hmed, hm.data]
  rw [h1, h2]; rfl

theorem flv_doubled {t : AVStream} {p : AVPacket} {c : CodecData} (hcp : t.codecParameters = some c) (hmed : p.mediaType = mediaVideo)
    (hty : p.packetType = packAVCC) : doubled t p = if p.key then c.annexBExtraData else [] := by
  unfold doubled
  rw [hcp]
  cases hk : p.key with
  | true => rw [if_pos ⟨hmed, rfl, hty⟩]; rfl
  | false => rw [if_neg (fun h => by cases h.2.1)]; rfl

/-- A video frame in FLV goes to the track that was announced for it. -/
theorem flv_video {a : Bool} {h : List (Oracle × DemuxOp)} {s : Demuxer} (hr : Reached "flv" a h s) {ba bv id : Int}
    (hne : ba ≠ bv) (hb : ∀ x ∈ h, x.2.OnBuffers ba bv) (hv : ∀ x ∈ h, x.2.VideoIs id) {i : Nat} {t : AVStream} {b : Int}
    (ht : s.tracks.tracks[i]? = some t) (hib : ((i : Int), b) ∈ s.bufferOf) {g : Given} (hg : g ∈ givenOf b h) (hgv : g.video = true) :
    g.codec = id ∧ t.codecID = id ∧ t.data.length < 2 ^ 62 ∧ (∃ dts pts k, (.videoPacket b id g.data k dts pts) ∈ h.map Prod.snd) ∧
    (∃ b' e tb, (.newVideoTrack b' id tb e) ∈ h.map Prod.snd ∧ t.data = e.getD []) ∧
    ∃ undef grow, generateVideoCodecData undef grow packAVCC id t.data = ok t.codecParameters := by
  have hty := Demuxer.runDemux_types (reached_new "flv" a) (Demuxer.Types.new "flv" a ba bv) (by decide) hr.1 hb hr.2
  obtain ⟨⟨o, e⟩, hx, he⟩ := List.mem_filterMap.1 hg
  have hmem : e ∈ h.map Prod.snd := List.mem_map_of_mem (f := Prod.snd) hx
  obtain ⟨hbv, hcod, hop⟩ : b = bv ∧ g.codec = id ∧ ∃ dts pts k, (.videoPacket b id g.data k dts pts) ∈ h.map Prod.snd := by
    have h1 := hb _ hx
    have h2 := hv _ hx
    cases e with
    | videoPacket b' id' d k dts pts =>
      simp only [DemuxOp.given] at he
      split at he
      · rename_i hbb
        cases he
        have h2 : id' = id := h2
        subst h2
        subst hbb
        exact ⟨h1, rfl, _, _, _, hmem⟩
      · cases he
    | audioPacket b' id' d ts =>
      simp only [DemuxOp.given] at he
      split at he
      · cases he; cases hgv
      · cases he
    | _ => cases he
  have htv : t.mediaType = mediaVideo := by
    rcases hty.at ht hib with h1 | h1
    · exact h1.1
    · exact absurd (h1.2.symm.trans hbv) hne
  cases flv_tracks hr t (List.mem_of_getElem? ht) with
  | audio h1 => rw [htv] at h1; exact absurd h1 (by decide)
  | video b' ex hmem' _ hdat hc =>
    obtain ⟨⟨o', e'⟩, hx', he'⟩ := List.mem_map.1 hmem'
    dsimp only at he'
    subst he'
    obtain ⟨hid, hlen⟩ := hv _ hx'
    rw [← hdat] at hlen
    rw [hid] at hmem' hc
    exact ⟨hcod, hid, hlen, hop, ⟨b', ex, _, hmem', hdat⟩, hc⟩

/-- What the file handler makes of an FLV packet with H.264. -/
theorem flv_avc_packet {a : Bool} {h : List (Oracle × DemuxOp)} {s : Demuxer} (hr : Reached "flv" a h s) {ba bv : Int}
    (hne : ba ≠ bv) (hb : ∀ x ∈ h, x.2.OnBuffers ba bv) (hv : ∀ x ∈ h, x.2.VideoIs codecH264) {i : Nat} {t : AVStream} {b : Int}
    (ht : s.tracks.tracks[i]? = some t) (hib : ((i : Int), b) ∈ s.bufferOf) {g : Given} (hg : g ∈ givenOf b h) {p : AVPacket} (hm : MadeFrom "flv" g p) :
    AvcInFile t g (doubled t p ++ elementary t p) ∧ (g.video = true → ∃ r, avccPacket2AnnexB t p = ok r) := by
  cases hgv : g.video with
  | false => exact ⟨by rw [flv_sound_packet hm hgv]; exact .audio hgv, fun h => by cases h⟩
  | true =>
    have hmed : p.mediaType = mediaVideo := by rw [hm.media, hgv]; rfl
    obtain ⟨hcod, hid, hlen, _, _, undef, grow, hc⟩ := flv_video hr hne hb hv ht hib hg hgv
    unfold generateVideoCodecData at hc
    rw [if_pos rfl, if_pos rfl] at hc
    obtain ⟨c, hc, hcp⟩ := bind_eq_ok.1 hc
    have hcp : t.codecParameters = some c := (Go.ok.inj hcp).symm
    obtain ⟨header, count, s0, sps, pps, trailing, info, hrec, _⟩ := (C69_avc_record_iff undef t.data hlen).2.1 ⟨c, hc⟩
    obtain ⟨_, _, _, hex, _⟩ := C69_avc_record undef t.data header hlen count (s0 :: sps) pps trailing hrec c hc
    obtain ⟨us, tail, hdd, hus, htl⟩ := C32_decompose p.data
    have hav : AvccPacket t p := ⟨hmed, by rw [hm.pack hgv]; rfl, Or.inl hid, hm.fresh⟩
    have hcon := C68_h264 t p c hav (by rw [hm.codec, hcod]) hcp us tail hus htl hdd
      (by intro n; unfold AVPacket.allocBuffer; rw [hm.alloc]; simp)
    dsimp only at hcon
    refine ⟨?_, fun _ => ⟨_, hcon⟩⟩
    have h2 : elementary t p = (if p.key then c.annexBExtraData else []) ++ annexB (firstLong (us.filter fun u => avcUnitType u ≠ 6)) := by
      unfold elementary
      rw [if_pos hmed, hcon]
    have := AvcInFile.video hgv header count (s0 :: sps) pps trailing hrec us tail hus htl (by rw [← hm.data]; exact hdd) (t := t)
    rw [flv_doubled hcp hmed hav.type, h2, hex, hm.key]
    cases hk : g.key with
    | true => rw [hk] at this; simpa [List.append_assoc] using this
    | false => rw [hk] at this; simpa using this

/-- What the file handler makes of an FLV packet with H.265. -/
theorem flv_hevc_packet {a : Bool} {h : List (Oracle × DemuxOp)} {s : Demuxer} (hr : Reached "flv" a h s) {ba bv : Int}
    (hne : ba ≠ bv) (hb : ∀ x ∈ h, x.2.OnBuffers ba bv) (hv : ∀ x ∈ h, x.2.VideoIs codecH265) {k : Nat} (hk : ∀ x ∈ h, x.2.HevcBy k)
    {i : Nat} {t : AVStream} {b : Int}
    (ht : s.tracks.tracks[i]? = some t) (hib : ((i : Int), b) ∈ s.bufferOf) {g : Given} (hg : g ∈ givenOf b h) {p : AVPacket} (hm : MadeFrom "flv" g p) :
    HevcInFile k t g (doubled t p ++ elementary t p) ∧ (g.video = true → ∃ r, avccPacket2AnnexB t p = ok r) := by
  cases hgv : g.video with
  | false => exact ⟨by rw [flv_sound_packet hm hgv]; exact .audio hgv, fun h => by cases h⟩
  | true =>
    have hmed : p.mediaType = mediaVideo := by rw [hm.media, hgv]; rfl
    obtain ⟨hcod, hid, hlen, ⟨dts, pts, key, hop⟩, ⟨b', ex, tb, hop', hdat⟩, undef, grow, hc⟩ := flv_video hr hne hb hv ht hib hg hgv
    obtain ⟨x, hx, e⟩ := List.mem_map.1 hop
    have hfr := hk x hx
    rw [e] at hfr
    obtain ⟨us, hd, hu, hfit⟩ := hfr
    obtain ⟨x', hx', e'⟩ := List.mem_map.1 hop'
    have hkk := hk x' hx'
    rw [e'] at hkk
    have hkk : bitField (ex.getD []) 174 2 + 1 = k := hkk
    rw [← hdat] at hkk
    unfold generateVideoCodecData at hc
    rw [if_pos rfl, if_neg (by decide), if_pos rfl] at hc
    obtain ⟨c, hc, hcp⟩ := bind_eq_ok.1 hc
    have hcp : t.codecParameters = some c := (Go.ok.inj hcp).symm
    unfold parseHEVCRecord at hc
    obtain ⟨⟨r1, r⟩, hun, hc⟩ := bind_eq_ok.1 hc
    cases r1 with
    | error e => cases hc
    | ok x =>
      dsimp only at hc
      obtain ⟨s0, hs0, hc⟩ := bind_eq_ok.1 hc
      obtain ⟨info, hi, hc⟩ := bind_eq_ok.1 hc
      obtain ⟨h23, xs, trailing, y1, y2, y3, l1, l2, l3⟩ := C95_lists grow t.data hlen r hun
      have hrec := IsHevcRecord.arrays h23 y1 y2 y3
      have hls := (C70_header_fields grow {} r t.data hlen hun).2.2.2.2.2.2.2.2.2.2.2.2.2.2.2.2.1
      have hcr : c.record = .hevc r := by cases hc; rfl
      have hex : c.annexBExtraData = (setsOfType 32 (recordSets xs) ++ r.spsList ++ setsOfType 34 (recordSets xs)).flatten := by
        cases hc
        show mix [r.vpsList, r.spsList, r.ppsList] = _
        rw [mix_eq, l1, l2]
        simp
      have hav : AvccPacket t p := ⟨hmed, by rw [hm.pack hgv]; rfl, Or.inr hid, hm.fresh⟩
      have hbf : bitField t.data 174 2 < 4 := by
        unfold bitField
        refine lt_of_lt_of_le (bitsVal_lt _) ?_
        exact Nat.pow_le_pow_right (by decide) (List.length_take_le _ _)
      have hcon := C68_h265 t p c r k hav (by rw [hm.codec, hcod]) hcp hcr (by rw [hls, hkk]) (by omega) us hu (by rw [hm.data, hd])
        (by rw [hm.data]; exact hfit) (by intro n; unfold AVPacket.allocBuffer; rw [hm.alloc]; simp)
      dsimp only at hcon
      refine ⟨?_, fun _ => ⟨_, hcon⟩⟩
      have h2 : elementary t p = (if p.key then c.annexBExtraData else []) ++ us.flatMap startCoded := by
        unfold elementary
        rw [if_pos hmed, hcon]
        rfl
      have := HevcInFile.video (k := k) (t := t) hgv _ xs trailing hrec grow r.spsList l3 us hd hu _ hex
      rw [flv_doubled hcp hmed hav.type, h2, hm.key]
      cases hk : g.key with
      | true => rw [hk] at this; simpa [List.append_assoc] using this
      | false => rw [hk] at this; simpa using this

end Avf
