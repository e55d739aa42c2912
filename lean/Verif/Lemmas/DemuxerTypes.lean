import Verif.Props.DemuxerAnnounce
/-! # Lemmas: one track of each type -/
namespace Avf
open Go
namespace Demuxer

/-- Audio tracks are on buffer `ba`, video tracks on `bv`, one of each at most. -/
structure Types (ba bv : Int) (s : Demuxer) : Prop where
  inv : Inv s
  types : ∀ t ∈ s.tracks.tracks, t.mediaType = mediaAudio ∨ t.mediaType = mediaVideo
  audio : HasType s mediaAudio → ba ∈ s.bufferOf.map Prod.snd
  video : HasType s mediaVideo → bv ∈ s.bufferOf.map Prod.snd
  one : OnePerType s
  placed : s.bufferOf.map Prod.snd = (s.tracks.tracks.map (·.mediaType)).map fun m => if m = mediaVideo then bv else ba

theorem Types.new (name : String) (a : Bool) (ba bv : Int) : Types ba bv (Demuxer.new name a) := by
  constructor
  · exact Inv.new name a
  · intro t ht; cases ht
  · rintro ⟨t, ht, _⟩; cases ht
  · rintro ⟨t, ht, _⟩; cases ht
  · intro m; simp [Demuxer.new]
  · rfl

theorem tuned_types {l l' : List AVStream} (h : List.Forall₂ Fine l l') : l'.map (·.mediaType) = l.map (·.mediaType) := by
  induction h with
  | nil => rfl
  | cons hr _ ih => rw [List.map_cons, List.map_cons, ih, hr.fields.2.1]

theorem types_congr {s s' : Demuxer} (h : s'.tracks.tracks.map (·.mediaType) = s.tracks.tracks.map (·.mediaType)) :
    (∀ m, HasType s' m ↔ HasType s m) ∧ (OnePerType s' ↔ OnePerType s) := by
  have key : ∀ (x : Demuxer) (m : Int), HasType x m ↔ m ∈ x.tracks.tracks.map (·.mediaType) := by
    intro x m
    unfold HasType
    rw [List.mem_map]
  have cnt : ∀ (x : Demuxer) (m : Int), (x.tracks.tracks.filter fun t => t.mediaType = m).length =
      ((x.tracks.tracks.map (·.mediaType)).filter fun k => k = m).length := by
    intro x m
    rw [List.filter_map, List.length_map]
    rfl
  refine ⟨fun m => by rw [key, key, h], ?_⟩
  unfold OnePerType
  simp only [cnt, h]

/-- No new track. -/
theorem Types.same {ba bv : Int} {s s' : Demuxer} (h : Types ba bv s) (hi : Inv s') (hb : s'.bufferOf = s.bufferOf) (ht : TunedTo s s') :
    Types ba bv s' := by
  have ht' := tuned_types ht
  obtain ⟨h1, h2⟩ := types_congr ht'
  refine ⟨hi, ?_, ?_, ?_, h2.2 h.one, by rw [hb, ht', h.placed]⟩
  · intro t htm
    obtain ⟨x, hx, hf⟩ := forall₂_mem ht htm
    rw [hf.fields.2.1]; exact h.types x hx
  · rw [h1, hb]; exact h.audio
  · rw [h1, hb]; exact h.video

/-- A new track of a type that was not there. -/
theorem Types.more {ba bv : Int} {s s' : Demuxer} (h : Types ba bv s) (hi : Inv s') {u : AVStream} {b : Int}
    (hb : s'.bufferOf = s.bufferOf ++ [((s.tracks.tracks.length : Int), b)])
    (ht : List.Forall₂ Fine (s.tracks.tracks ++ [u]) s'.tracks.tracks)
    (hu : (u.mediaType = mediaAudio ∧ b = ba) ∨ (u.mediaType = mediaVideo ∧ b = bv)) (hno : ¬ HasType s u.mediaType) : Types ba bv s' := by
  have ht' := tuned_types ht
  have hs : s'.tracks.tracks.map (·.mediaType) =
      ({ s with tracks := { tracks := s.tracks.tracks ++ [u] } } : Demuxer).tracks.tracks.map (·.mediaType) := ht'
  obtain ⟨h1, h2⟩ := types_congr hs
  refine ⟨hi, ?_, ?_, ?_, h2.2 ?_, ?_⟩
  · intro t htm
    obtain ⟨x, hx, hf⟩ := forall₂_mem ht htm
    rw [hf.fields.2.1]
    rcases List.mem_append.1 hx with hx | hx
    · exact h.types x hx
    · rw [List.mem_singleton] at hx
      subst hx
      exact hu.imp And.left And.left
  · rw [h1, hb, List.map_append, List.mem_append]
    rintro ⟨t, htm, hm⟩
    rcases List.mem_append.1 htm with htm | htm
    · exact Or.inl (h.audio ⟨t, htm, hm⟩)
    · rw [List.mem_singleton] at htm
      subst htm
      rcases hu with ⟨_, rfl⟩ | ⟨h3, _⟩
      · exact Or.inr (by simp)
      · rw [h3] at hm; exact absurd hm (by decide)
  · rw [h1, hb, List.map_append, List.mem_append]
    rintro ⟨t, htm, hm⟩
    rcases List.mem_append.1 htm with htm | htm
    · exact Or.inl (h.video ⟨t, htm, hm⟩)
    · rw [List.mem_singleton] at htm
      subst htm
      rcases hu with ⟨h3, _⟩ | ⟨_, rfl⟩
      · rw [h3] at hm; exact absurd hm (by decide)
      · exact Or.inr (by simp)
  · intro m
    show ((s.tracks.tracks ++ [u]).filter _).length ≤ 1
    rw [List.filter_append, List.length_append]
    by_cases hm : u.mediaType = m
    · have : (s.tracks.tracks.filter fun t => t.mediaType = m) = [] := by
        rw [List.filter_eq_nil_iff]
        intro t htm hd
        exact hno ⟨t, htm, by rw [hm]; simpa using hd⟩
      rw [this]
      simp [List.filter_cons, hm]
    · have := h.one m
      simpa [List.filter_cons, hm] using this
  · rw [hb, ht', List.map_append, List.map_append, List.map_append, h.placed]
    rcases hu with ⟨h3, rfl⟩ | ⟨h3, rfl⟩
    · simp [h3, show mediaAudio ≠ mediaVideo by decide]
    · simp [h3]

theorem Types.nodup {ba bv : Int} {s : Demuxer} (h : Types ba bv s) (hne : ba ≠ bv) : (s.bufferOf.map Prod.snd).Nodup := by
  rw [h.placed]
  have hone : ((s.tracks.tracks.map (·.mediaType))).Nodup := by
    rw [List.nodup_iff_count_le_one]
    intro m
    have := h.one m
    rw [List.count_eq_length_filter, List.filter_map, List.length_map]
    refine le_trans (le_of_eq ?_) this
    congr 1
  have hty : ∀ m ∈ s.tracks.tracks.map (·.mediaType), m = mediaAudio ∨ m = mediaVideo := by
    intro m hm
    obtain ⟨t, ht, rfl⟩ := List.mem_map.1 hm
    exact h.types t ht
  refine (List.nodup_map_iff_inj_on hone).2 fun x hx y hy e => ?_
  have hd : mediaAudio ≠ mediaVideo := by decide
  rcases hty x hx with rfl | rfl <;> rcases hty y hy with rfl | rfl
  · rfl
  · rw [if_neg hd, if_pos rfl] at e; exact absurd e hne
  · rw [if_neg hd, if_pos rfl] at e; exact absurd e.symm hne
  · rfl

/-- The type of the track on a buffer. -/
theorem Types.at {ba bv : Int} {s : Demuxer} (h : Types ba bv s) {i : Nat} {b : Int} {t : AVStream} (ht : s.tracks.tracks[i]? = some t)
    (hb : ((i : Int), b) ∈ s.bufferOf) : (t.mediaType = mediaVideo ∧ b = bv) ∨ (t.mediaType = mediaAudio ∧ b = ba) := by
  obtain ⟨j, hj, e⟩ := List.mem_iff_getElem.1 hb
  have hk := congrArg (·[j]?) h.inv.keys
  have hp := congrArg (·[j]?) h.placed
  have hlen : j < s.tracks.tracks.length := by rw [← len_eq h.inv]; exact hj
  simp only [List.getElem?_map, List.getElem?_eq_getElem hj, e, Option.map_some, List.getElem?_range hlen, Option.some.injEq] at hk hp
  have : j = i := by omega
  subst this
  rw [ht] at hp
  simp only [Option.map_some, Option.some.injEq] at hp
  rcases h.types t (List.mem_of_getElem? ht) with h1 | h1
  · exact Or.inr ⟨h1, by rw [hp, h1, if_neg (by decide)]⟩
  · exact Or.inl ⟨h1, by rw [hp, h1, if_pos rfl]⟩

theorem forall₂_len {α : Type} {R : α → α → Prop} {l l' : List α} (h : List.Forall₂ R l l') : l.length = l'.length := h.length_eq

theorem run_types {name : String} {a : Bool} {l : List (Oracle × DemuxOp)} {s s' : Demuxer} (hr : Reached name a l s) {ba bv : Int}
    (h : Types ba bv s) (hn : name ≠ "ts") {o : Oracle} (ho : o.Valid) {e : DemuxOp} (he : e.OnBuffers ba bv) (h1 : e.run o s = ok s') :
    Types ba bv s' := by
  have hi := h.inv
  have hi' : Inv s' := hi.micros (run_micros ho hi h1)
  have hl := len_eq hi
  have hl' := len_eq hi'
  have hsh := run_shape ho hi h1
  obtain ⟨_, ht | ⟨u, hu, hc, ht⟩⟩ := run_tracks h1
  · refine h.same hi' ?_ ht
    have hlen := forall₂_len ht
    have fin : ∀ x, s'.bufferOf = s.bufferOf ++ [x] → s'.bufferOf = s.bufferOf := by
      intro x hx
      have := congrArg List.length hx
      rw [List.length_append, List.length_singleton] at this
      omega
    cases hsh with
    | plain cs _ _ hb _ => exact hb
    | track b _ _ hb => exact hb.elim id (fin _)
    | reject b d _ _ hb _ => exact hb
    | accept p cs d _ _ _ _ hb => exact hb.elim And.left fun hb => fin _ hb.2.2
  · have hlen := forall₂_len ht
    rw [List.length_append, List.length_singleton] at hlen
    have packet : ∀ (b : Int) (d : Bytes), e.block = some (b, d) → e.PacketOnly →
        b ∉ s.bufferOf.map Prod.snd ∧ s'.bufferOf = s.bufferOf ++ [((s.tracks.tracks.length : Int), b)] := by
      intro b d hbl hpo
      cases hsh with
      | plain cs _ _ hb hk => rw [hbl] at hk; cases hk
      | track b _ hno _ => exact absurd hpo hno
      | reject b d _ _ hb _ => rw [hb] at hl'; omega
      | accept p cs d hk _ _ _ hb =>
        rw [hbl] at hk
        cases hk
        rcases hb with ⟨hb, _⟩ | ⟨h2, h3, h4⟩
        · rw [hb] at hl'; omega
        · rw [h3] at h4; exact ⟨h2, h4⟩
    cases hu with
    | audio b id d ts tb skip ex c u hx htb hu =>
      obtain ⟨hb1, hb2⟩ := packet b d rfl trivial
      obtain ⟨c', rfl, _⟩ := hu
      have he : b = ba := he
      exact h.more hi' hb2 ht (Or.inl ⟨rfl, he⟩) fun hty => hb1 (he ▸ h.audio hty)
    | video b id d ex k dts pts tb u hk hx htb hu =>
      obtain ⟨hb1, hb2⟩ := packet b d rfl trivial
      obtain ⟨c', _, rfl⟩ := hu
      have he : b = bv := he
      exact h.more hi' hb2 ht (Or.inr ⟨rfl, he⟩) fun hty => hb1 (he ▸ h.video hty)
    | newAudio b id tb ex c u hu =>
      have he : b = ba := he
      simp only [DemuxOp.run] at h1
      obtain ⟨⟨t, s1⟩, h2, h1⟩ := bind_eq_ok.1 h1
      cases h1
      have hcon := C75_audio hr h2
      obtain ⟨c', rfl, _⟩ := hu
      split at hcon
      · obtain ⟨_, hon⟩ := hcon
        rw [hon] at hlen
        simp at hlen
      · rename_i hcond
        obtain ⟨v, _, ⟨_, hap⟩, hm, _⟩ := hcon
        have hno : ¬ HasType s mediaAudio := fun hty => hcond (Or.inr (Or.inl ⟨hn, hty⟩))
        refine h.more hi' (u := v) (b := b) (by rw [hap]) (by rw [hap]; exact forall₂_tuned_refl _) (Or.inl ⟨hm, he⟩) (by rw [hm]; exact hno)
    | newVideo b id tb ex u hu =>
      have he : b = bv := he
      simp only [DemuxOp.run] at h1
      obtain ⟨⟨t, s1⟩, h2, h1⟩ := bind_eq_ok.1 h1
      cases h1
      have hcon := C75_video hr h2
      obtain ⟨c', _, rfl⟩ := hu
      split at hcon
      · obtain ⟨_, hon⟩ := hcon
        rw [hon] at hlen
        simp at hlen
      · rename_i hcond
        obtain ⟨v, _, ⟨_, hap⟩, hm, _⟩ := hcon
        have hno : ¬ HasType s mediaVideo := fun hty => hcond (Or.inr (Or.inl ⟨hn, hty⟩))
        refine h.more hi' (u := v) (b := b) (by rw [hap]) (by rw [hap]; exact forall₂_tuned_refl _) (Or.inr ⟨hm, he⟩) (by rw [hm]; exact hno)

theorem runDemux_types {name : String} {a : Bool} {pre l : List (Oracle × DemuxOp)} {s s' : Demuxer} {ba bv : Int}
    (hr0 : Reached name a pre s) (h : Types ba bv s) (hn : name ≠ "ts") (hv : ∀ x ∈ l, x.1.Valid) (hb : ∀ x ∈ l, x.2.OnBuffers ba bv)
    (hr : runDemux s l = ok s') : Types ba bv s' := by
  induction l generalizing s pre with
  | nil => cases hr; exact h
  | cons x l ih =>
    obtain ⟨o, e⟩ := x
    obtain ⟨s1, h1, hr⟩ := bind_eq_ok.1 hr
    have ho := hv _ (List.mem_cons_self ..)
    refine ih (pre := pre ++ [(o, e)]) (Reached.append hr0 (by intro x hx; rw [List.mem_singleton] at hx; subst hx; exact ho) (by
      show (e.run o s >>= _) = _; rw [h1]; rfl)) (run_types hr0 h hn ho (hb _ (List.mem_cons_self ..)) h1) (fun y hy => hv y (List.mem_cons_of_mem _ hy))
      (fun y hy => hb y (List.mem_cons_of_mem _ hy)) hr

end Demuxer
end Avf
