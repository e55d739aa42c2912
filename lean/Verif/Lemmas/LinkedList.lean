import Verif.Model.LinkedList
/-! Helper lemmas: a linked list holds a list. -/
namespace Avf
open Go
namespace LList
variable {α : Type}

/-- The nodes reachable from `fist` are `ns`, in this order, and carry `xs`. -/
structure Rep (l : LList α) (ns : List Nat) (xs : List α) : Prop where
  len : ns.length = xs.length
  size : l.size = xs.length
  nodup : ns.Nodup
  node : ∀ i (h : i < ns.length), ∃ nx, l.heap[ns[i]]? = some ⟨xs[i]'(by omega), nx⟩ ∧
    ∀ h' : i + 1 < ns.length, nx = some ns[i+1]
  fist : l.fist = ns[0]?
  last : l.last = ns[ns.length - 1]?

theorem nodup_idx {ns : List Nat} (h : ns.Nodup) {i j : Nat} (hi : i < ns.length) (hj : j < ns.length)
    (he : ns[i] = ns[j]) : i = j := (List.getElem_inj h).mp he

theorem rep_empty : Rep (empty : LList α) [] [] :=
  ⟨rfl, rfl, by simp, by intro i h; simp at h, rfl, rfl⟩

theorem Rep.add {l : LList α} {ns : List Nat} {xs : List α} (h : Rep l ns xs) (v : α) :
    ∃ l', l.add v = ok l' ∧ Rep l' (ns ++ [l.heap.length]) (xs ++ [v]) := by
  obtain ⟨h1, h2, h3, h4, h5, h6⟩ := h
  have hlt : ∀ i (hi : i < ns.length), ns[i] < l.heap.length := by
    intro i hi
    obtain ⟨nx, hx, _⟩ := h4 i hi
    exact (List.getElem?_eq_some_iff.mp hx).1
  have hnd : (ns ++ [l.heap.length]).Nodup := by
    rw [List.nodup_append]
    refine ⟨h3, by simp, ?_⟩
    intro a ha b hb
    simp at hb
    subst hb
    obtain ⟨i, hi, rfl⟩ := List.getElem_of_mem ha
    have := hlt i hi
    omega
  unfold LList.add
  rcases Nat.eq_zero_or_pos ns.length with h0 | h0
  · have hn : ns = [] := List.length_eq_zero_iff.mp h0
    have hx : xs = [] := List.length_eq_zero_iff.mp (by omega)
    subst hn hx
    simp only [List.length_nil, List.getElem?_nil] at h5 h6
    simp only [h6, Option.isSome_none, Bool.false_eq_true, if_false, ok_bind, pure_def]
    refine ⟨_, rfl, rfl, by simp [h2], by simp, ?_, by simp, by simp⟩
    intro i hi
    simp at hi
    subst hi
    exact ⟨none, by simp, fun h' => by simp at h'⟩
  · have hl : l.last = some ns[ns.length - 1] := by rw [h6, List.getElem?_eq_getElem (by omega)]
    obtain ⟨nx, hnx, _⟩ := h4 (ns.length - 1) (by omega)
    have hidx : idx (l.heap ++ [(⟨v, none⟩ : LNode α)]) ns[ns.length - 1] = ok ⟨xs[ns.length - 1]'(by omega), nx⟩ := by
      rw [idx_eq_ok, List.getElem?_append_left (hlt _ (by omega)), hnx]
    simp only [hl, Option.isSome_some, if_true, setNext, hidx, ok_bind, pure_def]
    refine ⟨_, rfl, by simp [h1], by simp [h2], hnd, ?_, ?_, by simp⟩
    · intro i hi
      simp only [List.length_append, List.length_cons, List.length_nil] at hi
      by_cases hi' : i < ns.length
      · rw [List.getElem_append_left hi']
        obtain ⟨nx', hx1, hx2⟩ := h4 i hi'
        by_cases he : i = ns.length - 1
        · subst he
          refine ⟨some l.heap.length, ?_, ?_⟩
          · simp only
            rw [List.getElem?_set_self (by simp; have := hlt (ns.length - 1) hi'; omega)]
            simp [List.getElem_append_left (show ns.length - 1 < xs.length by omega)]
          · intro h'
            rw [List.getElem_append_right (by omega)]; simp
        · refine ⟨nx', ?_, ?_⟩
          · simp only
            rw [List.getElem?_set_ne, List.getElem?_append_left (hlt i hi'), hx1]
            · simp [List.getElem_append_left (show i < xs.length by omega)]
            · intro hc
              exact he (nodup_idx h3 (by omega) hi' hc).symm
          · intro h'
            rw [List.getElem_append_left (by omega)]
            exact hx2 (by omega)
      · have : i = ns.length := by omega
        subst this
        refine ⟨none, ?_, fun h' => by simp at h'⟩
        simp only [List.getElem_append_right (Nat.le_refl _), Nat.sub_self, List.getElem_cons_zero]
        rw [List.getElem?_set_ne (by have := hlt (ns.length - 1) (by omega); omega)]
        simp [h1]
    · simp only [h5]
      rw [List.getElem?_append_left h0]

theorem Rep.walk {l : LList α} {ns : List Nat} {xs : List α} (h : Rep l ns xs) (k : Nat) (hk : k < xs.length) :
    ∀ (n i : Nat) (prev : Option Nat), i ≤ k → n + i = xs.length →
      l.walk k n i prev ns[i]? = ok (if i = k then prev else ns[k-1]?, ns[k]?) := by
  intro n
  induction n with
  | zero => intro i prev hi hn; omega
  | succ n ih =>
    intro i prev hi hn
    unfold LList.walk
    by_cases he : i = k
    · subst he; simp
    · rw [if_neg (by omega), if_neg he]
      have hlen := h.len
      obtain ⟨nx, h1, h2⟩ := h.node i (by omega)
      rw [List.getElem?_eq_getElem (by omega)]
      simp only [deref, idx_eq_ok.mpr h1, ok_bind]
      rw [h2 (by omega), ← List.getElem?_eq_getElem (by omega), ← List.getElem?_eq_getElem (by omega)]
      have := ih (i + 1) ns[i]? (by omega) (by omega)
      rw [show ((i : Int) + 1) = ((i + 1 : Nat) : Int) by omega, this]
      split
      · rename_i h3; rw [← h3]; simp
      · rfl

theorem Rep.get {l : LList α} {ns : List Nat} {xs : List α} (h : Rep l ns xs) (k : Nat) :
    l.get k = match xs[k]? with | none => panic | some x => ok x := by
  unfold LList.get
  have hs := h.size
  have hlen := h.len
  by_cases hk : k < xs.length
  · have hd : decide ((k : Int) < l.size) = true := by simp; omega
    have hw := h.walk k hk l.size 0 l.fist (by omega) (by omega)
    rw [← h.fist] at hw
    rw [hd]
    simp only [assert_true, ok_bind]
    rw [show (0 : Int) = ((0 : Nat) : Int) from rfl, hw]
    obtain ⟨nx, h1, _⟩ := h.node k (by omega)
    have hnk : ns[k]? = some ns[k] := List.getElem?_eq_getElem (by omega)
    rw [hnk, List.getElem?_eq_getElem hk]
    simp [deref, idx_eq_ok.mpr h1]
  · have hd : decide ((k : Int) < l.size) = false := by simp; omega
    rw [hd, List.getElem?_eq_none (by omega)]
    rfl

theorem Rep.remove {l : LList α} {ns : List Nat} {xs : List α} (h : Rep l ns xs) (k : Nat) (hk : k < xs.length) :
    ∃ l', l.remove k = ok (xs[k], l') ∧ Rep l' (ns.eraseIdx k) (xs.eraseIdx k) := by
  have hs := h.size
  have hlen := h.len
  have hw := h.walk k hk l.size 0 l.fist (by omega) (by omega)
  rw [← h.fist] at hw
  unfold LList.remove
  have hd : decide ((k : Int) < l.size) = true := by simp; omega
  rw [hd]
  simp only [assert_true, ok_bind]
  rw [show (0 : Int) = ((0 : Nat) : Int) from rfl, hw]
  obtain ⟨nx, hx1, hx2⟩ := h.node k (by omega)
  have hnk : ns[k]? = some ns[k] := List.getElem?_eq_getElem (by omega)
  have hf : l.fist = some ns[0] := by rw [h.fist, List.getElem?_eq_getElem (by omega)]
  have hla : l.last = some ns[ns.length - 1] := by rw [h.last, List.getElem?_eq_getElem (by omega)]
  have hel : (ns.eraseIdx k).length = (xs.eraseIdx k).length := by
    rw [List.length_eraseIdx_of_lt (by omega), List.length_eraseIdx_of_lt hk]; omega
  have hesz : l.size - 1 = (xs.eraseIdx k).length := by rw [List.length_eraseIdx_of_lt hk]; omega
  have hend : (ns.eraseIdx k).Nodup := h.nodup.sublist (List.eraseIdx_sublist _ _)
  -- a heap that agrees with the old one on the kept nodes, with the links of the kept order, represents the rest
  have build : ∀ (hp : List (LNode α)) (f la : Option Nat),
      (∀ i (hi : i < (ns.eraseIdx k).length), ∃ nx, hp[(ns.eraseIdx k)[i]]? =
        some ⟨(xs.eraseIdx k)[i]'(by omega), nx⟩ ∧ ∀ h' : i + 1 < (ns.eraseIdx k).length, nx = some (ns.eraseIdx k)[i+1]) →
      f = (ns.eraseIdx k)[0]? → la = (ns.eraseIdx k)[(ns.eraseIdx k).length - 1]? →
      Rep { heap := hp, fist := f, last := la, size := l.size - 1 } (ns.eraseIdx k) (xs.eraseIdx k) := by
    intro hp f la a1 a2 a3
    exact ⟨hel, hesz, hend, a1, a2, a3⟩
  have hlen' : (ns.eraseIdx k).length = ns.length - 1 := List.length_eraseIdx_of_lt (by omega)
  by_cases h0 : k = 0
  · -- first node
    subst h0
    simp only [if_true, hf, hnk, deref, ok_bind, pure_def, idx_eq_ok.mpr hx1]
    by_cases h1 : l.size - 1 = 0
    · rw [if_pos h1]
      simp only [idx_eq_ok.mpr hx1, ok_bind]
      refine ⟨_, rfl, build l.heap none none ?_ ?_ ?_⟩
      · intro i hi; omega
      · rw [List.getElem?_eq_none (by omega)]
      · rw [List.getElem?_eq_none (by omega)]
    · rw [if_neg h1]
      simp only [idx_eq_ok.mpr hx1, ok_bind]
      refine ⟨_, rfl, build l.heap nx l.last ?_ ?_ ?_⟩
      · intro i hi
        obtain ⟨nx', g1, g2⟩ := h.node (i + 1) (by omega)
        simp only [List.getElem_eraseIdx, Nat.not_lt_zero, dite_false]
        exact ⟨nx', g1, fun h' => g2 (by omega)⟩
      · rw [hx2 (by omega), List.getElem?_eraseIdx]
        simp
      · rw [h.last, List.getElem?_eraseIdx, if_neg (by omega), hlen']
        congr 1; omega
  · have hne0 : ¬ (ns[k]? = l.fist) := by
      rw [hnk, hf]; intro hc
      simp only [Option.some.injEq] at hc
      exact h0 (nodup_idx h.nodup _ _ hc)
    simp only [ok_bind]
    rw [if_neg hne0, if_neg (Ne.symm h0)]
    have hk1 : ns[k-1]? = some ns[k-1] := List.getElem?_eq_getElem (by omega)
    by_cases hl : k = ns.length - 1
    · have hle : ns[k]? = l.last := by rw [hla, hnk]; simp only [hl]
      have hb := build l.heap l.fist ns[k-1]? (by
          intro i hi
          obtain ⟨nx', g1, g2⟩ := h.node i (by omega)
          simp only [List.getElem_eraseIdx, show i < k by omega, dite_true]
          exact ⟨nx', g1, fun h' => by rw [g2 (by omega)]; simp; intro; omega⟩) (by
          rw [h.fist, List.getElem?_eraseIdx, if_pos (by omega)]) (by
          rw [hlen', List.getElem?_eraseIdx, if_pos (by omega)]; congr 1; omega)
      rw [if_pos hle]
      simp only [ok_bind, pure_def]
      rw [if_neg (by omega), hnk]
      simp only [deref, idx_eq_ok.mpr hx1, ok_bind]
      exact ⟨_, rfl, hb⟩
    · have hnl : ¬ (ns[k]? = l.last) := by
        rw [hnk, hla]; intro hc
        simp only [Option.some.injEq] at hc
        exact hl (nodup_idx h.nodup _ _ hc)
      rw [if_neg hnl, hnk, hk1]
      obtain ⟨px, p1, p2⟩ := h.node (k - 1) (by omega)
      simp only [deref, idx_eq_ok.mpr hx1, ok_bind, setNext, idx_eq_ok.mpr p1, pure_def]
      rw [if_neg (by omega)]
      have hneq : ∀ i (hi : i < ns.length), i ≠ k - 1 → ns[k-1] ≠ ns[i] := by
        intro i hi hne hc
        exact hne (nodup_idx h.nodup _ _ hc).symm
      have hplt : ns[k-1] < l.heap.length := (List.getElem?_eq_some_iff.mp p1).1
      have hread : idx (l.heap.set ns[k-1] ⟨xs[k-1], nx⟩) ns[k] = ok ⟨xs[k], nx⟩ := by
        rw [idx_eq_ok, List.getElem?_set_ne (hneq k (by omega) (by omega)), hx1]
      simp only [hread, ok_bind]
      refine ⟨_, rfl, build _ _ _ ?_ ?_ ?_⟩
      · intro i hi
        simp only [List.getElem_eraseIdx]
        by_cases hik : i < k
        · simp only [hik, dite_true]
          by_cases hi1 : i = k - 1
          · subst hi1
            refine ⟨nx, by rw [List.getElem?_set_self hplt], ?_⟩
            intro h'
            rw [hx2 (by omega)]
            simp only [show k - 1 + 1 = k by omega, Nat.lt_irrefl, dite_false]
          · obtain ⟨nx', g1, g2⟩ := h.node i (by omega)
            refine ⟨nx', by rw [List.getElem?_set_ne (hneq i (by omega) hi1), g1], ?_⟩
            intro h'
            rw [g2 (by omega)]
            simp only [show i + 1 < k by omega, dite_true]
        · simp only [hik, dite_false]
          obtain ⟨nx', g1, g2⟩ := h.node (i + 1) (by omega)
          refine ⟨nx', by rw [List.getElem?_set_ne (hneq (i + 1) (by omega) (by omega)), g1], ?_⟩
          intro h'
          rw [g2 (by omega)]
          simp only [show ¬ i + 1 < k by omega, dite_false]
      · rw [h.fist, List.getElem?_eraseIdx, if_pos (by omega)]
      · rw [h.last, List.getElem?_eraseIdx, if_neg (by omega), hlen']
        congr 1; omega

theorem Rep.remove_panic {l : LList α} {ns : List Nat} {xs : List α} (h : Rep l ns xs) (k : Nat) (hk : xs.length ≤ k) :
    l.remove k = panic := by
  have hs := h.size
  unfold LList.remove
  have hd : decide ((k : Int) < l.size) = false := by simp; omega
  rw [hd]; rfl

end LList
end Avf
