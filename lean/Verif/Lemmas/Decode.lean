import Verif.Spec.Decode
import Verif.Lemmas.Repackage
import Verif.Props.EndToEnd
/-! # Lemmas for C108 -/
namespace Avf
open Go

/-- The sets in force after these units. -/
def loaded (codec : Int) : Sets → List Bytes → Sets
  | a, [] => a
  | a, u :: us =>
    match setType codec u with
    | some k => loaded codec (a.put k u) us
    | none => loaded codec a us

theorem decoded_append (codec : Int) (a : Sets) (xs ys : List Bytes) :
    decoded codec a (xs ++ ys) = decoded codec a xs ++ decoded codec (loaded codec a xs) ys := by
  induction xs generalizing a with
  | nil => rfl
  | cons x xs ih =>
    rw [List.cons_append, decoded, decoded, loaded]
    cases setType codec x with
    | some k => exact ih _
    | none =>
      dsimp only
      split
      · rw [ih]; rfl
      · exact ih _

theorem loaded_append (codec : Int) (a : Sets) (xs ys : List Bytes) :
    loaded codec a (xs ++ ys) = loaded codec (loaded codec a xs) ys := by
  induction xs generalizing a with
  | nil => rfl
  | cons x xs ih =>
    rw [List.cons_append, loaded, loaded]
    cases setType codec x with
    | some k => exact ih _
    | none => exact ih _

theorem decoded_sets (codec : Int) (a : Sets) (ps : List Bytes) (h : ∀ u ∈ ps, setType codec u ≠ none) : decoded codec a ps = [] := by
  induction ps generalizing a with
  | nil => rfl
  | cons u ps ih =>
    rw [decoded]
    cases hk : setType codec u with
    | some k => exact ih _ fun v hv => h v (List.mem_cons_of_mem _ hv)
    | none => exact absurd hk (h u (List.mem_cons_self ..))

/-- One set of each type. -/
def OneEach (codec : Int) (ps : List Bytes) : Prop :=
  (∀ u ∈ ps, setType codec u ≠ none) ∧ ∀ u ∈ ps, ∀ v ∈ ps, setType codec u = setType codec v → u = v

/-- The source's sets are among `ps`, and the file has them in force too. -/
def Follows (codec : Int) (ps : List Bytes) (a b : Sets) : Prop :=
  ∀ k v, a k = some v → b k = some v ∧ v ∈ ps ∧ setType codec v = some k

theorem Follows.put {codec : Int} {ps : List Bytes} {a b : Sets} (h : Follows codec ps a b) {k : Nat} {u : Bytes} (hu : u ∈ ps)
    (hk : setType codec u = some k) : Follows codec ps (a.put k u) (b.put k u) := by
  intro j v hv
  unfold Sets.put at hv ⊢
  split at hv
  · next e => cases hv; subst e; exact ⟨by simp, hu, hk⟩
  · next e => rw [if_neg e]; exact h j v hv

/-- Sets of `ps` once more make no difference. -/
theorem Follows.load {codec : Int} {ps : List Bytes} (hps : OneEach codec ps) (qs : List Bytes) (hq : ∀ u ∈ qs, u ∈ ps) {a b : Sets}
    (h : Follows codec ps a b) : Follows codec ps a (loaded codec b qs) := by
  induction qs generalizing b with
  | nil => exact h
  | cons u qs ih =>
    rw [loaded]
    have hu := hq u (List.mem_cons_self ..)
    cases hk : setType codec u with
    | none => exact absurd hk (hps.1 u hu)
    | some k =>
      refine ih (fun v hv => hq v (List.mem_cons_of_mem _ hv)) fun j v hv => ?_
      obtain ⟨h1, h2, h3⟩ := h j v hv
      refine ⟨?_, h2, h3⟩
      unfold Sets.put
      split
      · next e => rw [hps.2 u hu v h2 (by rw [hk, h3, e])]
      · exact h1

theorem Follows.units {codec : Int} {ps : List Bytes} (us : List Bytes) (hu : ∀ u ∈ us, setType codec u ≠ none → u ∈ ps) {a b : Sets}
    (h : Follows codec ps a b) :
    List.Forall₂ Prepared (decoded codec a us) (decoded codec b us) ∧ Follows codec ps (loaded codec a us) (loaded codec b us) := by
  induction us generalizing a b with
  | nil => exact ⟨.nil, h⟩
  | cons u us ih =>
    have hu' : ∀ v ∈ us, setType codec v ≠ none → v ∈ ps := fun v hv => hu v (List.mem_cons_of_mem _ hv)
    rw [decoded, decoded, loaded, loaded]
    cases hk : setType codec u with
    | some k => exact ih hu' (h.put (hu u (List.mem_cons_self ..) (by simp [hk])) hk)
    | none =>
      obtain ⟨h1, h2⟩ := ih hu' h
      refine ⟨?_, h2⟩
      dsimp only
      split
      · exact .cons ⟨rfl, fun k v hv => (h k v hv).1⟩ h1
      · exact h1

/-- Frames with sets of `ps` put in front of some of them. -/
theorem Follows.frames {codec : Int} {ps : List Bytes} (hps : OneEach codec ps) {uss vss : List (List Bytes)}
    (hv : List.Forall₂ (fun us vs => vs = us ∨ vs = ps ++ us) uss vss) (hu : ∀ us ∈ uss, ∀ u ∈ us, setType codec u ≠ none → u ∈ ps) {a b : Sets}
    (h : Follows codec ps a b) : List.Forall₂ Prepared (decoded codec a uss.flatten) (decoded codec b vss.flatten) := by
  induction hv generalizing a b with
  | nil => exact .nil
  | @cons us vs uss vss e _ ih =>
    have hu1 := hu us (List.mem_cons_self ..)
    have hu2 : ∀ us ∈ uss, ∀ u ∈ us, setType codec u ≠ none → u ∈ ps := fun vs hv => hu vs (List.mem_cons_of_mem _ hv)
    rw [List.flatten_cons, List.flatten_cons, decoded_append, decoded_append]
    rcases e with rfl | rfl
    · obtain ⟨h1, h2⟩ := h.units vs hu1
      exact List.rel_append h1 (ih hu2 h2)
    · obtain ⟨h1, h2⟩ := (h.load hps ps fun _ h => h).units us hu1
      rw [decoded_append, decoded_sets codec b ps hps.1, List.nil_append, loaded_append]
      exact List.rel_append h1 (ih hu2 h2)

theorem follows_none (codec : Int) (ps : List Bytes) (b : Sets) : Follows codec ps noSets b := by
  intro k v h; cases h

end Avf
