import Mathlib.Data.List.Dedup
import Verif.Lemmas.DemuxerTypes
/-! # Lemmas: the buffers of the tracks -/
namespace Avf
open Go
namespace Demuxer

/-- Tracks of one type are on buffers of their own, and each comes from an operation of the history. -/
structure Placed (h : List (Oracle × DemuxOp)) (s : Demuxer) : Prop where
  inv : Inv s
  nodup : (places s).Nodup
  source : ∀ (j : Nat) (p : Int × Int), (places s)[j]? = some p → ∃ x ∈ h, x.2.place = some p ∧
    ((∃ (i : Nat) (q : Int × Int), i < j ∧ (places s)[i]? = some q ∧ q.1 = p.1) → x.2.PacketOnly)

theorem Placed.new (name : String) (a : Bool) : Placed [] (Demuxer.new name a) := by
  refine ⟨Inv.new name a, by simp [places, Demuxer.new], ?_⟩
  intro j p hp
  simp [places, Demuxer.new] at hp

theorem places_length {s : Demuxer} (h : Inv s) : (places s).length = s.tracks.tracks.length := by
  simp [places, len_eq h]

theorem mem_places_type {s : Demuxer} {m b : Int} (h : (m, b) ∈ places s) : HasType s m := by
  have := (List.of_mem_zip h).1
  rw [List.mem_map] at this
  exact this

theorem mem_places_buffer {s : Demuxer} {m b : Int} (h : (m, b) ∈ places s) : b ∈ s.bufferOf.map Prod.snd :=
  (List.of_mem_zip h).2

theorem Placed.same {l : List (Oracle × DemuxOp)} {x : Oracle × DemuxOp} {s s' : Demuxer} (h : Placed l s) (hi : Inv s')
    (hb : s'.bufferOf = s.bufferOf) (ht : TunedTo s s') : Placed (l ++ [x]) s' := by
  have hp : places s' = places s := by
    unfold places
    rw [hb, tuned_types ht]
  refine ⟨hi, by rw [hp]; exact h.nodup, ?_⟩
  rw [hp]
  intro j p hj
  obtain ⟨y, hy, h1, h2⟩ := h.source j p hj
  exact ⟨y, List.mem_append_left _ hy, h1, h2⟩

theorem Placed.more {l : List (Oracle × DemuxOp)} {x : Oracle × DemuxOp} {s s' : Demuxer} (h : Placed l s) (hi : Inv s') {u : AVStream} {b : Int}
    (hb : s'.bufferOf = s.bufferOf ++ [((s.tracks.tracks.length : Int), b)])
    (ht : List.Forall₂ Fine (s.tracks.tracks ++ [u]) s'.tracks.tracks) (hx : x.2.place = some (u.mediaType, b))
    (hno : (x.2.PacketOnly ∧ b ∉ s.bufferOf.map Prod.snd) ∨ ¬ HasType s u.mediaType) : Placed (l ++ [x]) s' := by
  have hp : places s' = places s ++ [(u.mediaType, b)] := by
    unfold places
    rw [hb, tuned_types ht, List.map_append, List.map_append, List.zip_append (by simp [len_eq h.inv])]
    rfl
  have hnew : (u.mediaType, b) ∉ places s := fun hm => hno.elim (fun h => h.2 (mem_places_buffer hm)) (fun h => h (mem_places_type hm))
  refine ⟨hi, ?_, ?_⟩
  · rw [hp, List.nodup_append]
    refine ⟨h.nodup, by simp, ?_⟩
    intro a ha c hc e
    rw [List.mem_singleton] at hc
    subst e
    subst hc
    exact hnew ha
  · rw [hp]
    intro j p hj
    by_cases hlt : j < (places s).length
    · rw [List.getElem?_append_left hlt] at hj
      obtain ⟨y, hy, h1, h2⟩ := h.source j p hj
      refine ⟨y, List.mem_append_left _ hy, h1, ?_⟩
      rintro ⟨i, q, hij, hq, e⟩
      rw [List.getElem?_append_left (by omega)] at hq
      exact h2 ⟨i, q, hij, hq, e⟩
    · rw [List.getElem?_append_right (by omega)] at hj
      have hj0 : j - (places s).length = 0 := by
        by_contra hne
        rw [List.getElem?_eq_none (by simp; omega)] at hj
        cases hj
      rw [hj0] at hj
      simp only [List.getElem?_cons_zero, Option.some.injEq] at hj
      subst hj
      refine ⟨x, List.mem_append_right _ (List.mem_singleton_self _), hx, ?_⟩
      rintro ⟨i, q, hij, hq, e⟩
      rw [List.getElem?_append_left (by omega)] at hq
      rcases hno with h1 | h1
      · exact h1.1
      · obtain ⟨q1, q2⟩ := q
        simp only at e
        subst e
        exact absurd (mem_places_type (List.mem_of_getElem? hq)) h1

theorem run_placed {name : String} {a : Bool} {l : List (Oracle × DemuxOp)} {s s' : Demuxer} (hr : Reached name a l s)
    (h : Placed l s) (hn : name ≠ "ts") {o : Oracle} (ho : o.Valid) {e : DemuxOp} (h1 : e.run o s = ok s') :
    Placed (l ++ [(o, e)]) s' := by
  have hi := h.inv
  have hi' : Inv s' := hi.micros (run_micros ho hi h1)
  have hl := len_eq hi
  have hl' := len_eq hi'
  have hsh := run_shape ho hi h1
  obtain ⟨_, ht | ⟨u, hu, hc, ht⟩⟩ := run_tracks h1
  · refine h.same hi' ?_ ht
    have hlen := forall₂_len ht
    have fin : ∀ x, s'.bufferOf = s.bufferOf ++ [x] → s'.bufferOf = s.bufferOf := by
      intro x hx
      have := congrArg List.length hx
      rw [List.length_append, List.length_singleton] at this
      omega
    cases hsh with
    | plain cs _ _ hb _ => exact hb
    | track b _ _ hb => exact hb.elim id (fin _)
    | reject b d _ _ hb _ => exact hb
    | accept p cs d _ _ _ _ hb => exact hb.elim And.left fun hb => fin _ hb.2.2
  · have hlen := forall₂_len ht
    rw [List.length_append, List.length_singleton] at hlen
    have packet : ∀ (b : Int) (d : Bytes), e.block = some (b, d) → e.PacketOnly →
        b ∉ s.bufferOf.map Prod.snd ∧ s'.bufferOf = s.bufferOf ++ [((s.tracks.tracks.length : Int), b)] := by
      intro b d hbl hpo
      cases hsh with
      | plain cs _ _ hb hk => rw [hbl] at hk; cases hk
      | track b _ hno _ => exact absurd hpo hno
      | reject b d _ _ hb _ => rw [hb] at hl'; omega
      | accept p cs d hk _ _ _ hb =>
        rw [hbl] at hk
        cases hk
        rcases hb with ⟨hb, _⟩ | ⟨h2, h3, h4⟩
        · rw [hb] at hl'; omega
        · rw [h3] at h4; exact ⟨h2, h4⟩
    cases hu with
    | audio b id d ts tb skip ex c u hx htb hu =>
      obtain ⟨hb1, hb2⟩ := packet b d rfl trivial
      obtain ⟨c', rfl, _⟩ := hu
      exact h.more hi' hb2 ht rfl (Or.inl ⟨trivial, hb1⟩)
    | video b id d ex k dts pts tb u hk hx htb hu =>
      obtain ⟨hb1, hb2⟩ := packet b d rfl trivial
      obtain ⟨c', _, rfl⟩ := hu
      exact h.more hi' hb2 ht rfl (Or.inl ⟨trivial, hb1⟩)
    | newAudio b id tb ex c u hu =>
      simp only [DemuxOp.run] at h1
      obtain ⟨⟨t, s1⟩, h2, h1⟩ := bind_eq_ok.1 h1
      cases h1
      have hcon := C75_audio hr h2
      obtain ⟨c', rfl, _⟩ := hu
      split at hcon
      · obtain ⟨_, hon⟩ := hcon
        rw [hon] at hlen
        simp at hlen
      · rename_i hcond
        obtain ⟨v, _, ⟨_, hap⟩, hm, _⟩ := hcon
        have hno : ¬ HasType s mediaAudio := fun hty => hcond (Or.inr (Or.inl ⟨hn, hty⟩))
        refine h.more hi' (u := v) (b := b) (by rw [hap]) (by rw [hap]; exact forall₂_tuned_refl _) (by rw [hm]; rfl) (Or.inr (by rw [hm]; exact hno))
    | newVideo b id tb ex u hu =>
      simp only [DemuxOp.run] at h1
      obtain ⟨⟨t, s1⟩, h2, h1⟩ := bind_eq_ok.1 h1
      cases h1
      have hcon := C75_video hr h2
      obtain ⟨c', _, rfl⟩ := hu
      split at hcon
      · obtain ⟨_, hon⟩ := hcon
        rw [hon] at hlen
        simp at hlen
      · rename_i hcond
        obtain ⟨v, _, ⟨_, hap⟩, hm, _⟩ := hcon
        have hno : ¬ HasType s mediaVideo := fun hty => hcond (Or.inr (Or.inl ⟨hn, hty⟩))
        refine h.more hi' (u := v) (b := b) (by rw [hap]) (by rw [hap]; exact forall₂_tuned_refl _) (by rw [hm]; rfl) (Or.inr (by rw [hm]; exact hno))

theorem runDemux_placed {name : String} {a : Bool} {pre l : List (Oracle × DemuxOp)} {s s' : Demuxer}
    (hr0 : Reached name a pre s) (h : Placed pre s) (hn : name ≠ "ts") (hv : ∀ x ∈ l, x.1.Valid)
    (hr : runDemux s l = ok s') : Placed (pre ++ l) s' := by
  induction l generalizing s pre with
  | nil => cases hr; rwa [List.append_nil]
  | cons x l ih =>
    obtain ⟨o, e⟩ := x
    obtain ⟨s1, h1, hr⟩ := bind_eq_ok.1 hr
    have ho := hv _ (List.mem_cons_self ..)
    have := ih (pre := pre ++ [(o, e)]) (Reached.append hr0 (by intro x hx; rw [List.mem_singleton] at hx; subst hx; exact ho) (by
      show (e.run o s >>= _) = _; rw [h1]; rfl)) (run_placed hr0 h hn ho h1) (fun y hy => hv y (List.mem_cons_of_mem _ hy)) hr
    rwa [List.append_assoc] at this

theorem places_filter {s : Demuxer} (h : Inv s) (m : Int) :
    (s.tracks.tracks.filter fun t => t.mediaType = m).length = (((places s).filter fun p => p.1 = m).map Prod.snd).length := by
  have h1 : (places s).map Prod.fst = s.tracks.tracks.map (·.mediaType) := by
    unfold places
    rw [List.map_fst_zip (by simp [len_eq h])]
  have h2 : (s.tracks.tracks.filter fun t => t.mediaType = m).length = ((s.tracks.tracks.map (·.mediaType)).filter fun k => k = m).length := by
    rw [List.filter_map, List.length_map]
    rfl
  rw [h2, ← h1, List.filter_map, List.length_map, List.length_map]
  rfl

theorem mem_buffersOf {m b : Int} {l : List DemuxOp} {e : DemuxOp} (he : e ∈ l) (h : e.place = some (m, b)) : b ∈ buffersOf m l := by
  unfold buffersOf
  rw [List.mem_dedup, List.mem_filterMap]
  exact ⟨e, he, by rw [h]; simp⟩

end Demuxer
end Avf
