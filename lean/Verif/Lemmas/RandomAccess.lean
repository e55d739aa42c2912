import Verif.Spec.RandomAccess
import Verif.Props.Decode
/-! # Helpers for random access -/
namespace Avf
open Go

theorem Ready.put {codec : Int} {a : Sets} (h : Ready codec a) (k : Nat) (u : Bytes) : Ready codec (a.put k u) := by
  intro j hj
  unfold Sets.put
  split
  · exact fun e => by cases e
  · exact h j hj

/-- Sets stay. -/
theorem Ready.decoded {codec : Int} {a : Sets} (h : Ready codec a) (us : List Bytes) : ∀ x ∈ Avf.decoded codec a us, Ready codec x.2 := by
  induction us generalizing a with
  | nil => intro x hx; cases hx
  | cons u us ih =>
    rw [Avf.decoded]
    cases setType codec u with
    | some k => exact ih (h.put k u)
    | none =>
      dsimp only
      split
      · intro x hx
        rcases List.mem_cons.1 hx with rfl | hx
        · exact h
        · exact ih h x hx
      · exact ih h

theorem loaded_some {codec : Int} {a : Sets} {us : List Bytes} {k : Nat} :
    loaded codec a us k ≠ none ↔ a k ≠ none ∨ ∃ u ∈ us, setType codec u = some k := by
  induction us generalizing a with
  | nil => simp [loaded]
  | cons u us ih =>
    rw [loaded]
    cases hu : setType codec u with
    | none => simp only [ih, List.mem_cons, exists_eq_or_imp, hu]; simp
    | some j =>
      simp only [ih, List.mem_cons, exists_eq_or_imp, hu]
      simp only [Sets.put, Option.some.injEq]
      by_cases e : k = j
      · simp [e]
      · simp [e, Ne.symm e]

/-- With sets in front of the first picture a decoder can start, whatever follows. -/
theorem SelfContained.canStart {codec : Int} {us : List Bytes} (h : SelfContained codec us) (rest : List Bytes) : CanStart codec (us ++ rest) := by
  obtain ⟨pre, post, rfl, hp, hk⟩ := h
  intro x hx
  rw [List.append_assoc, decoded_append] at hx
  have e : decoded codec noSets pre = [] := by
    have := decoded_pictures codec noSets pre
    rw [List.filter_eq_nil_iff.2 fun u hu => by simp [hp u hu]] at this
    exact List.map_eq_nil_iff.1 this
  rw [e, List.nil_append] at hx
  exact Ready.decoded (fun k hk' => loaded_some.2 (Or.inr (hk k hk'))) _ x hx

/-- And without a decoder cannot, if there is a picture. -/
theorem CanStart.selfContained {codec : Int} {us rest : List Bytes} (h : CanStart codec (us ++ rest)) (hp : ∃ u ∈ us, isPicture codec u = true) :
    SelfContained codec us := by
  obtain ⟨pre, u, post, rfl, h1, h2⟩ : ∃ pre u post, us = pre ++ u :: post ∧ (∀ v ∈ pre, isPicture codec v = false) ∧ isPicture codec u = true := by
    clear h
    induction us with
    | nil => obtain ⟨u, hu, _⟩ := hp; cases hu
    | cons v us ih =>
      by_cases hv : isPicture codec v = true
      · exact ⟨[], v, us, rfl, by simp, hv⟩
      · obtain ⟨pre, u, post, e, h1, h2⟩ := ih (by
          obtain ⟨u, hu, h⟩ := hp
          rcases List.mem_cons.1 hu with rfl | hu
          · exact absurd h hv
          · exact ⟨u, hu, h⟩)
        refine ⟨v :: pre, u, post, by rw [e]; rfl, ?_, h2⟩
        intro w hw
        rcases List.mem_cons.1 hw with rfl | hw
        · simpa using hv
        · exact h1 w hw
  refine ⟨pre, u :: post, rfl, h1, fun k hk => ?_⟩
  have hset : setType codec u = none := by
    by_contra e
    rw [setType_picture e] at h2
    cases h2
  have := h (u, loaded codec noSets pre) (by
    rw [List.append_assoc, decoded_append, List.cons_append, decoded, hset]
    simp [h2]) k hk
  rcases loaded_some.1 this with h | h
  · exact absurd rfl h
  · exact h

theorem selfContained_append {codec : Int} {ps : List Bytes} (hs : ∀ p ∈ ps, setType codec p ≠ none)
    (hk : ∀ k ∈ neededTypes codec, ∃ u ∈ ps, setType codec u = some k) (us : List Bytes) : SelfContained codec (ps ++ us) :=
  ⟨ps, us, rfl, fun u hu => setType_picture (hs u hu), hk⟩

/-- The parameter sets of a track are of all types. -/
theorem paramSets_needed {id : Int} {us ps : List Bytes} (h : paramSets id us = some ps) : ∀ k ∈ neededTypes id, ∃ u ∈ ps, setType id u = some k := by
  have last : ∀ (type : Bytes → Nat) (k : Nat) (u : Bytes), lastOf type k us = some u → type u = k := by
    intro type k u hu
    have := List.mem_of_getLast? hu
    simpa using (List.mem_filter.1 this).2
  unfold paramSets at h
  split at h
  · next e =>
    subst e
    split at h
    · next s p hs hp =>
      cases h
      have h1 := last _ _ _ hs
      have h2 := last _ _ _ hp
      simp [neededTypes, setType, *]
    · cases h
  · split at h
    · next e0 e =>
      subst e
      split at h
      · next v s p hv hs hp =>
        cases h
        have h0 := last _ _ _ hv
        have h1 := last _ _ _ hs
        have h2 := last _ _ _ hp
        have hne : codecH265 ≠ codecH264 := by decide
        simp [neededTypes, setType, *]
      · cases h
    · cases h

theorem leadByte_header {us : List Bytes} {d : Bytes} (h : HasUnits d us) (hf : ∀ u ∈ us, Framed u) : leadByte d = firstHeader us := by
  obtain ⟨xs, rfl, rfl⟩ := h
  cases xs with
  | nil => rfl
  | cons x xs =>
    obtain ⟨l, u⟩ := x
    cases u with
    | nil => exact absurd rfl (hf [] (by simp)).ne
    | cons a u => cases l <;> simp [leadByte, annexB, annexUnit, code, firstHeader]

/-- The units of a frame in the file, exactly. -/
theorem inFile_exact {t : AVStream} {ps us : List Bytes} {f : Frame} (hm : t.mediaType = mediaVideo) (hc : HasSets t.codecID)
    (ht : t.data = withCodes ps) (hps : ∀ p ∈ ps, Framed p) (hf : HasUnits f.data us) (hus : ∀ u ∈ us, Framed u) :
    HasUnits (inFile t f) (if f.video = true ∧ f.key = true ∧ firstHeader ps ≠ firstHeader us then ps ++ us else us) := by
  have h1 := leadByte_header hf hus
  have h2 : HasUnits t.data ps := ⟨ps.map (true, ·), by rw [ht]; exact withCodes_annexB ps, by simp⟩
  have h3 := leadByte_header h2 hps
  unfold inFile
  rw [h1, h3]
  simp only [hm, hc, true_and]
  split
  · obtain ⟨xs, e1, e2⟩ := hf
    obtain ⟨ys, e3, e4⟩ := h2
    exact ⟨ys ++ xs, by rw [annexB_append, e1, e3], by rw [List.map_append, e2, e4]⟩
  · exact hf

end Avf
