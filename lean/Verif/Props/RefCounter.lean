import Verif.Model.RefCounter
/-!
# C18: `ReferenceCounter` (`collections/reference_counter.go`)

An execution is a list of atomic steps, each tagged with the goroutine that performs it.  A goroutine `t` starts with
`own t` references and may only call `Refer`/`Release` while it still owns one (`Disc`): this is the usual contract, and
it is a condition on each goroutine's own program, not on the interleaving.
-/
namespace Avf
open Go
namespace RefCounter

inductive Op where
  | addRef | release
deriving DecidableEq, Repr

/-- One atomic step; the result is `Release`'s return value (`none` for `Refer`). -/
def Op.run (o : Op) (r : RefCounter) : Option Bool × RefCounter :=
  match o with
  | .addRef => (none, r.addRef)
  | .release => let (b, r) := r.release; (some b, r)

/-- Run an interleaving: the results in order and the final counter. -/
def exec : List (Nat × Op) → RefCounter → List (Option Bool) × RefCounter
  | [], r => ([], r)
  | (_, o) :: tr, r =>
    let (x, r') := o.run r
    let (xs, r'') := exec tr r'
    (x :: xs, r'')

/-- The steps of goroutine `t`. -/
def proj (t : Nat) (tr : List (Nat × Op)) : List Op := (tr.filter (·.1 == t)).map (·.2)

/-- A goroutine program that only acts while it owns a reference, started with `k`. -/
def Disc : Nat → List Op → Prop
  | _, [] => True
  | k, .addRef :: os => 1 ≤ k ∧ Disc (k + 1) os
  | k, .release :: os => 1 ≤ k ∧ Disc (k - 1) os

/-- Number of `Refer`s / `Release`s in an interleaving. -/
def count (o : Op) (tr : List (Nat × Op)) : Nat := (tr.filter (·.2 == o)).length

/-- Every step happens while at least one reference is held; `k` = references held before. -/
def Live : Nat → List Op → Prop
  | _, [] => True
  | k, .addRef :: os => 1 ≤ k ∧ Live (k + 1) os
  | k, .release :: os => 1 ≤ k ∧ Live (k - 1) os

theorem proj_cons_self (t : Nat) (o : Op) (tr : List (Nat × Op)) : proj t ((t, o) :: tr) = o :: proj t tr := by
  simp [proj]

theorem proj_cons_ne (t t' : Nat) (o : Op) (tr : List (Nat × Op)) (h : t' ≠ t) : proj t ((t', o) :: tr) = proj t tr := by
  simp [proj, h]

theorem sum_update (n : Nat) (own : Nat → Nat) (t d : Nat) (ht : t < n) :
    (((List.range n).map fun i => if i = t then d else own i).sum : Int) =
      ((List.range n).map own).sum + (d - own t : Int) := by
  induction n with
  | zero => omega
  | succ n ih =>
    simp only [List.range_succ, List.map_append, List.map_cons, List.map_nil, List.sum_append, List.sum_cons, List.sum_nil]
    by_cases he : t = n
    · have : (List.range n).map (fun i => if i = t then d else own i) = (List.range n).map own := by
        apply List.map_congr_left
        intro i hi
        rw [List.mem_range] at hi
        rw [if_neg (by omega)]
      rw [this, if_pos he.symm]
      subst he
      omega
    · have := ih (by omega)
      rw [if_neg (by omega)]
      omega

theorem le_sum (n : Nat) (own : Nat → Nat) (t : Nat) (ht : t < n) : own t ≤ ((List.range n).map own).sum := by
  induction n with
  | zero => omega
  | succ n ih =>
    simp only [List.range_succ, List.map_append, List.map_cons, List.map_nil, List.sum_append, List.sum_cons, List.sum_nil]
    by_cases he : t = n
    · subst he; omega
    · have := ih (by omega); omega

/-- Local discipline of every goroutine implies that every step of every interleaving happens while a reference is held. -/
theorem live_of_disc (n : Nat) (tr : List (Nat × Op)) : ∀ (own : Nat → Nat), (∀ s ∈ tr, s.1 < n) →
    (∀ t, t < n → Disc (own t) (proj t tr)) → Live (((List.range n).map own).sum) (tr.map (·.2)) := by
  induction tr with
  | nil => intro own _ _; trivial
  | cons s tr ih =>
    obtain ⟨t, o⟩ := s
    intro own htid hdisc
    have ht : t < n := htid (t, o) (List.mem_cons_self ..)
    have hd := hdisc t ht
    rw [proj_cons_self] at hd
    have hle := le_sum n own t ht
    have step : ∀ d, Disc d (proj t tr) →
        Live (((List.range n).map fun i => if i = t then d else own i).sum) (tr.map (·.2)) := by
      intro d hdd
      refine ih (fun i => if i = t then d else own i) (fun s hs => htid s (List.mem_cons_of_mem _ hs)) ?_
      intro t' ht'
      by_cases he : t' = t
      · subst he; rw [if_pos rfl]; exact hdd
      · rw [if_neg he]
        have := hdisc t' ht'
        rw [proj_cons_ne _ _ _ _ (Ne.symm he)] at this
        exact this
    cases o with
    | addRef =>
      obtain ⟨h1, h2⟩ := hd
      refine ⟨by omega, ?_⟩
      have := step (own t + 1) h2
      have hs := sum_update n own t (own t + 1) ht
      have e : ((List.range n).map fun i => if i = t then own t + 1 else own i).sum = ((List.range n).map own).sum + 1 := by
        omega
      rw [e] at this; exact this
    | release =>
      obtain ⟨h1, h2⟩ := hd
      refine ⟨by omega, ?_⟩
      have := step (own t - 1) h2
      have hs := sum_update n own t (own t - 1) ht
      have e : ((List.range n).map fun i => if i = t then own t - 1 else own i).sum = ((List.range n).map own).sum - 1 := by
        omega
      rw [e] at this; exact this

/-- What `Release`/`Refer` have to return: a release returns true iff it drops the last reference. -/
def results : Nat → List Op → List (Option Bool)
  | _, [] => []
  | k, .addRef :: os => none :: results (k + 1) os
  | k, .release :: os => some (k == 1) :: results (k - 1) os

/-- References held never exceed `m` (so the int32 does not overflow). -/
def Bounded (m : Nat) : Nat → List Op → Prop
  | k, [] => k ≤ m
  | k, .addRef :: os => k ≤ m ∧ Bounded m (k + 1) os
  | k, .release :: os => k ≤ m ∧ Bounded m (k - 1) os

theorem exec_spec (tr : List (Nat × Op)) : ∀ k : Nat, Live k (tr.map (·.2)) → Bounded (2 ^ 31 - 1) k (tr.map (·.2)) →
    (exec tr ⟨BitVec.ofNat 32 k⟩).1 = results k (tr.map (·.2)) ∧
    ((exec tr ⟨BitVec.ofNat 32 k⟩).2.useCount = k + count .addRef tr - count .release tr) := by
  induction tr with
  | nil =>
    intro k _ hb
    refine ⟨rfl, ?_⟩
    simp only [List.map_nil, Bounded] at hb
    simp only [exec, useCount, count, List.filter_nil, List.length_nil]
    rw [BitVec.toInt_eq_toNat_of_lt (by rw [BitVec.toNat_ofNat]; omega), BitVec.toNat_ofNat]
    omega
  | cons s tr ih =>
    obtain ⟨t, o⟩ := s
    intro k hl hb
    cases o with
    | addRef =>
      obtain ⟨h1, h2⟩ := hl
      obtain ⟨h3, h4⟩ := hb
      have he : (⟨BitVec.ofNat 32 k⟩ : RefCounter).addRef = ⟨BitVec.ofNat 32 (k + 1)⟩ := by
        simp only [addRef, RefCounter.mk.injEq]
        apply BitVec.eq_of_toNat_eq
        rw [BitVec.toNat_add, BitVec.toNat_ofNat, BitVec.toNat_ofNat, show BitVec.toNat (1 : BitVec 32) = 1 from rfl]
        omega
      obtain ⟨i1, i2⟩ := ih (k + 1) h2 h4
      simp only [exec, Op.run, he, List.map_cons, results]
      refine ⟨by rw [i1], ?_⟩
      rw [i2]
      simp [count]; omega
    | release =>
      obtain ⟨h1, h2⟩ := hl
      obtain ⟨h3, h4⟩ := hb
      have he : (⟨BitVec.ofNat 32 k⟩ : RefCounter).release = (k == 1, ⟨BitVec.ofNat 32 (k - 1)⟩) := by
        have e : BitVec.ofNat 32 k + (-1) = BitVec.ofNat 32 (k - 1) := by
          apply BitVec.eq_of_toNat_eq
          rw [BitVec.toNat_add, BitVec.toNat_ofNat, BitVec.toNat_ofNat,
            show BitVec.toNat (-1 : BitVec 32) = 2 ^ 32 - 1 from rfl]
          omega
        simp only [release, e, Prod.mk.injEq, and_true]
        rw [Bool.eq_iff_iff]
        simp only [beq_iff_eq]
        rw [← BitVec.toNat_inj, BitVec.toNat_ofNat, show BitVec.toNat (0 : BitVec 32) = 0 from rfl]
        omega
      obtain ⟨i1, i2⟩ := ih (k - 1) h2 h4
      simp only [exec, Op.run, he, List.map_cons, results]
      refine ⟨by rw [i1], ?_⟩
      rw [i2]
      simp [count]; omega

theorem results_no_true (os : List Op) : ∀ k, Live k os → k = 0 → results k os = [] := by
  intro k hl hk
  subst hk
  cases os with
  | nil => rfl
  | cons o os => cases o <;> exact absurd hl.1 (by omega)

theorem results_true_last (os : List Op) : ∀ (k i : Nat), Live k os → (results k os)[i]? = some (some true) →
    i + 1 = os.length := by
  induction os with
  | nil => intro k i _ h; simp [results] at h
  | cons o os ih =>
    intro k i hl h
    cases o with
    | addRef =>
      cases i with
      | zero => simp [results] at h
      | succ i =>
        simp only [results, List.getElem?_cons_succ] at h
        have := ih (k + 1) i hl.2 h
        simp; omega
    | release =>
      cases i with
      | zero =>
        simp only [results, List.getElem?_cons_zero, Option.some.injEq, beq_iff_eq] at h
        have h2 := hl.2
        subst h
        cases os with
        | nil => rfl
        | cons o os => cases o <;> exact absurd h2.1 (by omega)
      | succ i =>
        simp only [results, List.getElem?_cons_succ] at h
        have := ih (k - 1) i hl.2 h
        simp; omega

theorem results_last_true (os : List Op) : ∀ k : Nat, 1 ≤ k → Live k os →
    ((k : Int) + (os.filter (· == .addRef)).length - (os.filter (· == .release)).length = 0 ↔
      (results k os).getLast? = some (some true)) := by
  induction os with
  | nil => intro k hk _; simp [results]; omega
  | cons o os ih =>
    intro k hk hl
    cases o with
    | addRef =>
      have := ih (k + 1) (by omega) hl.2
      simp only [results]
      rw [List.getLast?_cons]
      cases hr : (results (k + 1) os).getLast? with
      | none =>
        rw [hr] at this
        simp at this ⊢; omega
      | some x =>
        rw [hr] at this
        simp at this ⊢
        rw [← this]; omega
    | release =>
      simp only [results]
      by_cases h1 : k = 1
      · have hnil : os = [] := by
          have h2 := hl.2
          subst h1
          cases os with
          | nil => rfl
          | cons o os => cases o <;> exact absurd h2.1 (by omega)
        subst hnil
        subst h1
        simp [results]
      · have := ih (k - 1) (by omega) hl.2
        rw [List.getLast?_cons]
        cases hr : (results (k - 1) os).getLast? with
        | none =>
          rw [hr] at this
          simp at this ⊢
          constructor
          · intro h; omega
          · intro h; exact absurd h h1
        | some x =>
          rw [hr] at this
          simp at this ⊢
          rw [← this]; omega

/-- **C18** any number `n` of goroutines, any interleaving `tr` of their atomic steps.  Goroutine `t` starts with `own t`
references (the counter starts at their sum) and only acts while it owns one; the total stays below 2^31.  Then
`UseCount` is the initial count plus `Refer`s minus `Release`s; `Release` returns true only for the very last step; and
it does return true there exactly when all references are gone. -/
theorem C18_exactly_one_release_sees_zero (n : Nat) (own : Nat → Nat) (tr : List (Nat × Op))
    (htid : ∀ s ∈ tr, s.1 < n) (hdisc : ∀ t, t < n → Disc (own t) (proj t tr))
    (hsum : 1 ≤ ((List.range n).map own).sum)
    (hb : Bounded (2 ^ 31 - 1) ((List.range n).map own).sum (tr.map (·.2))) :
    let k := ((List.range n).map own).sum
    let out := exec tr ⟨BitVec.ofNat 32 k⟩
    out.2.useCount = k + count .addRef tr - count .release tr ∧
    (∀ i : Nat, out.1[i]? = some (some true) → i + 1 = tr.length) ∧
    (out.2.useCount = 0 ↔ out.1.getLast? = some (some true)) := by
  intro k out
  have hl := live_of_disc n tr own htid hdisc
  obtain ⟨h1, h2⟩ := exec_spec tr k hl hb
  refine ⟨h2, ?_, ?_⟩
  · intro i hi
    have hi' : (results k (tr.map (·.2)))[i]? = some (some true) := by rw [← h1]; exact hi
    have := results_true_last _ _ _ hl hi'
    simpa using this
  · have h3 := results_last_true (tr.map (·.2)) k hsum hl
    have e1 : ∀ o : Op, ((tr.map (·.2)).filter (· == o)).length = count o tr := by
      intro o; simp [count, List.filter_map, Function.comp_def]
    rw [e1, e1] at h3
    show (exec tr ⟨BitVec.ofNat 32 k⟩).2.useCount = 0 ↔ (exec tr ⟨BitVec.ofNat 32 k⟩).1.getLast? = some (some true)
    rw [h2, h3, ← h1]

/-- **C18** a new counter holds one reference. -/
theorem C18_new : new = ⟨BitVec.ofNat 32 1⟩ ∧ new.useCount = 1 := ⟨rfl, by decide⟩

/-! Non-vacuity: two goroutines, one of which takes and drops an extra reference. -/
example : let tr : List (Nat × Op) := [(0, .addRef), (1, .release), (0, .release), (0, .release)]
    (∀ s ∈ tr, s.1 < 2) ∧ Disc 1 (proj 0 tr) ∧ Disc 1 (proj 1 tr) ∧
      Bounded (2 ^ 31 - 1) ((List.range 2).map fun _ => 1).sum (tr.map (·.2)) ∧
      (exec tr ⟨2⟩).1 = [none, some false, some false, some true] := by
  simp [proj, Disc, Bounded]; decide +kernel

end RefCounter
end Avf
