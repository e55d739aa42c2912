import Verif.Go
/-!
# Specification vocabulary: histories of operations

An object is a step function `Op → S → Go (O × S)` (`O` = what the caller sees).  `runTrace` runs a whole history.
Two objects agree (`Agree`) when they are both panicking, both failing, or both returning the same observations.
-/
namespace Avf
open Go

/-- Run a history; the result is the list of everything the caller saw. -/
def runTrace {Op S O : Type} (step : Op → S → Go (O × S)) : List Op → S → Go (List O × S)
  | [], s => ok ([], s)
  | o :: os, s => do
    let (x, s') ← step o s
    let (xs, s'') ← runTrace step os s'
    return (x :: xs, s'')

/-- Outcomes that agree, with related end states. -/
def Agree {S T O : Type} (R : S → T → Prop) : Go (O × S) → Go (O × T) → Prop
  | .ok (x, s), .ok (y, t) => x = y ∧ R s t
  | .err _, .err _ => True
  | .panic, .panic => True
  | _, _ => False

/-- What the caller sees of a history: the observations, or that it failed. -/
def seen {S O : Type} : Go (List O × S) → Go (List O)
  | .ok (xs, _) => ok xs
  | .err _ => err ""
  | .panic => panic

/-- A step-wise simulation gives agreement of all histories. -/
theorem runTrace_agree {Op S T O : Type} {R : S → T → Prop} {f : Op → S → Go (O × S)} {g : Op → T → Go (O × T)}
    {P : Op → Prop} (h : ∀ o s t, P o → R s t → Agree R (f o s) (g o t)) :
    ∀ (os : List Op) (s : S) (t : T), (∀ o ∈ os, P o) → R s t → Agree R (runTrace f os s) (runTrace g os t) := by
  intro os
  induction os with
  | nil => intro s t _ hr; exact ⟨rfl, hr⟩
  | cons o os ih =>
    intro s t hp hr
    have h1 := h o s t (hp o (List.mem_cons_self ..)) hr
    simp only [runTrace]
    cases hf : f o s with
    | ok a =>
      cases hg : g o t with
      | ok b =>
        rw [hf, hg] at h1
        obtain ⟨x, s'⟩ := a
        obtain ⟨y, t'⟩ := b
        obtain ⟨rfl, hr'⟩ := h1
        simp only [ok_bind]
        have h2 := ih s' t' (fun o ho => hp o (List.mem_cons_of_mem _ ho)) hr'
        cases hf' : runTrace f os s' with
        | ok a =>
          cases hg' : runTrace g os t' with
          | ok b =>
            rw [hf', hg'] at h2
            obtain ⟨h3, h4⟩ := h2
            exact ⟨by rw [h3], h4⟩
          | err m => rw [hf', hg'] at h2; exact h2.elim
          | panic => rw [hf', hg'] at h2; exact h2.elim
        | err m =>
          cases hg' : runTrace g os t' with
          | ok b => rw [hf', hg'] at h2; exact h2.elim
          | err m => trivial
          | panic => rw [hf', hg'] at h2; exact h2.elim
        | panic =>
          cases hg' : runTrace g os t' with
          | ok b => rw [hf', hg'] at h2; exact h2.elim
          | err m => rw [hf', hg'] at h2; exact h2.elim
          | panic => trivial
      | err m => rw [hf, hg] at h1; exact h1.elim
      | panic => rw [hf, hg] at h1; exact h1.elim
    | err m =>
      cases hg : g o t with
      | ok b => rw [hf, hg] at h1; exact h1.elim
      | err m => trivial
      | panic => rw [hf, hg] at h1; exact h1.elim
    | panic =>
      cases hg : g o t with
      | ok b => rw [hf, hg] at h1; exact h1.elim
      | err m => rw [hf, hg] at h1; exact h1.elim
      | panic => trivial

theorem Agree.seen_eq {S T O : Type} {R : S → T → Prop} {x : Go (List O × S)} {y : Go (List O × T)}
    (h : Agree R x y) : seen x = seen y := by
  cases x with
  | ok a =>
    cases y with
    | ok b => obtain ⟨h1, _⟩ := h; simp [seen, h1]
    | err m => exact h.elim
    | panic => exact h.elim
  | err m =>
    cases y with
    | ok b => exact h.elim
    | err m => rfl
    | panic => exact h.elim
  | panic =>
    cases y with
    | ok b => exact h.elim
    | err m => exact h.elim
    | panic => rfl

/-! ## Specifications that leave a choice

`A o t res`: in state `t` the operation `o` may have the outcome `res`. -/

/-- What the caller sees of a history is allowed by the specification. -/
def AllowedTrace {Op T O : Type} (A : Op → T → Go (O × T) → Prop) : List Op → T → Go (List O) → Prop
  | [], _, res => res = ok []
  | o :: os, t, res =>
    (A o t panic ∧ res = panic) ∨
    ∃ x t', A o t (ok (x, t')) ∧ ∃ res', AllowedTrace A os t' res' ∧ res = (x :: ·) <$> res'

/-- The outcome of a call is allowed, with related end states. -/
def Allows {S T O : Type} (R : S → T → Prop) (A : Go (O × T) → Prop) : Go (O × S) → Prop
  | .ok (x, s) => ∃ t, A (ok (x, t)) ∧ R s t
  | .err _ => False
  | .panic => A panic

theorem runTrace_allowed {Op S T O : Type} {R : S → T → Prop} {f : Op → S → Go (O × S)}
    {A : Op → T → Go (O × T) → Prop} (h : ∀ o s t, R s t → Allows R (A o t) (f o s)) :
    ∀ (os : List Op) (s : S) (t : T), R s t → AllowedTrace A os t (seen (runTrace f os s)) := by
  intro os
  induction os with
  | nil => intro s t _; rfl
  | cons o os ih =>
    intro s t hr
    have h1 := h o s t hr
    simp only [runTrace]
    cases hf : f o s with
    | ok a =>
      obtain ⟨x, s'⟩ := a
      rw [hf] at h1
      obtain ⟨t', h2, h3⟩ := h1
      refine .inr ⟨x, t', h2, _, ih s' t' h3, ?_⟩
      simp only [ok_bind]
      cases runTrace f os s' with
      | ok b => rfl
      | err m => rfl
      | panic => rfl
    | err m => rw [hf] at h1; exact h1.elim
    | panic => rw [hf] at h1; exact .inl ⟨h1, rfl⟩

end Avf
