import Verif.Model.ListCost
import Verif.Spec.ListCost
import Verif.Props.LinkedList
/-! # Helper lemmas: steps in linked lists -/
namespace Avf
open Go
namespace LList
variable {α : Type}

theorem walkCount_erase (l : LList α) (index : Int) : ∀ (n : Nat) (i : Int) (prev off : Option Nat) (c : Nat),
    (l.walkCount index n i prev off c >>= fun x => ok x.1) = l.walk index n i prev off := by
  intro n
  induction n with
  | zero => intro i prev off c; rfl
  | succ n ih =>
    intro i prev off c
    unfold walkCount walk
    split
    · rfl
    · rw [bind_assoc]
      congr 1
      funext node
      exact ih _ _ _ _

theorem Rep.walkCount {l : LList α} {ns : List Nat} {xs : List α} (h : Rep l ns xs) (k : Nat) (hk : k < xs.length) :
    ∀ (n i : Nat) (prev : Option Nat) (c : Nat), i ≤ k → n + i = xs.length →
      ∃ r, l.walkCount k n i prev ns[i]? c = ok (r, c + (k - i)) := by
  intro n
  induction n with
  | zero => intro i prev c hi hn; omega
  | succ n ih =>
    intro i prev c hi hn
    unfold LList.walkCount
    by_cases he : i = k
    · subst he
      rw [if_pos rfl, Nat.sub_self]
      exact ⟨_, rfl⟩
    · rw [if_neg (by omega)]
      have hlen := h.len
      obtain ⟨nx, h1, h2⟩ := h.node i (by omega)
      rw [List.getElem?_eq_getElem (show i < ns.length by omega)]
      simp only [deref, idx_eq_ok.mpr h1, ok_bind]
      rw [h2 (by omega), ← List.getElem?_eq_getElem (by omega), ← List.getElem?_eq_getElem (by omega)]
      obtain ⟨r, hr⟩ := ih (i + 1) ns[i]? (c + 1) (by omega) (by omega)
      rw [show ((i : Int) + 1) = ((i + 1 : Nat) : Int) by omega, hr]
      exact ⟨r, by rw [show c + 1 + (k - (i + 1)) = c + (k - i) by omega]⟩

theorem getCount_erase (l : LList α) (index : Int) : (l.getCount index >>= fun x => ok x.1) = l.get index := by
  unfold getCount get
  rw [← walkCount_erase l index l.size 0 l.fist l.fist 0]
  simp only [bind_assoc, ok_bind, Go.pure_def]

theorem removeCount_erase (l : LList α) (index : Int) : (l.removeCount index >>= fun x => ok x.1) = l.remove index := by
  unfold removeCount remove
  rw [← walkCount_erase l index l.size 0 l.fist l.fist 0]
  simp only [bind_assoc, ok_bind, Go.pure_def]

theorem LRel.getCount {l : LList α} {xs : List α} (h : LRel l xs) {k : Nat} (hk : k < xs.length) : l.getCount k = ok (xs[k], k) := by
  obtain ⟨ns, h⟩ := h
  have he := getCount_erase l k
  rw [h.get k, List.getElem?_eq_getElem hk] at he
  obtain ⟨⟨x, c⟩, h1, h2⟩ := bind_eq_ok.1 he
  injection h2 with h2
  rw [h1]
  obtain ⟨r, hw⟩ := h.walkCount k hk l.size 0 l.fist 0 (by omega) (by rw [h.size]; rfl)
  rw [← h.fist] at hw
  unfold LList.getCount at h1
  obtain ⟨_, _, h1⟩ := bind_eq_ok.1 h1
  rw [show (0 : Int) = ((0 : Nat) : Int) from rfl, hw, ok_bind] at h1
  obtain ⟨n, _, h1⟩ := bind_eq_ok.1 h1
  simp only [Go.pure_def, Go.ok.injEq, Prod.mk.injEq] at h1
  rw [← h1.2, ← h2]
  simp

theorem LRel.removeCount {l : LList α} {xs : List α} (h : LRel l xs) {k : Nat} (hk : k < xs.length) :
    ∃ l', l.removeCount k = ok ((xs[k], l'), k) ∧ LRel l' (xs.eraseIdx k) := by
  obtain ⟨ns, h⟩ := h
  obtain ⟨l', hr, hr'⟩ := h.remove k hk
  refine ⟨l', ?_, _, hr'⟩
  have he := removeCount_erase l k
  rw [hr] at he
  obtain ⟨⟨x, c⟩, h1, h2⟩ := bind_eq_ok.1 he
  injection h2 with h2
  rw [h1]
  obtain ⟨r, hw⟩ := h.walkCount k hk l.size 0 l.fist 0 (by omega) (by rw [h.size]; rfl)
  rw [← h.fist] at hw
  unfold LList.removeCount at h1
  obtain ⟨_, _, h1⟩ := bind_eq_ok.1 h1
  rw [show (0 : Int) = ((0 : Nat) : Int) from rfl, hw, ok_bind] at h1
  obtain ⟨n, _, h1⟩ := bind_eq_ok.1 h1
  obtain ⟨m, _, h1⟩ := bind_eq_ok.1 h1
  simp only [Go.pure_def, Go.ok.injEq, Prod.mk.injEq] at h1
  have h2 : x = (xs[k], l') := h2
  rw [← h1.2, h2]
  simp

theorem LRel.frontCount {l : LList α} {xs : List α} (h : LRel l xs) : ∀ n, n ≤ xs.length → l.frontCount n = ok (n * (n - 1) / 2) := by
  intro n
  induction n with
  | zero => intro _; rfl
  | succ n ih =>
    intro hn
    unfold LList.frontCount
    rw [ih (by omega), ok_bind, h.getCount (by omega), ok_bind]
    show ok _ = _
    congr 1
    cases n with
    | zero => rfl
    | succ m =>
      simp only [Nat.add_sub_cancel]
      rw [show (m + 1 + 1) * (m + 1) = (m + 1) * m + 2 * (m + 1) by ring_nf, Nat.add_mul_div_left _ _ (by omega)]

end LList

/-- What a packet costs whose queue has the elements `xs`. -/
theorem enqueueCount_eq {d : ObjDemuxer} {i : Nat} {q : LList Nat} {xs : List Nat} (hq : d.queues[i]? = some q) (h : LList.LRel q xs) (p : Nat) :
    d.enqueueCount i p = ok (queueSteps d.base.completed xs.length) := by
  unfold ObjDemuxer.enqueueCount
  have : idxI d.queues (i : Int) = ok q := by
    unfold idxI; rw [if_neg (by omega), idx_eq_ok, Int.toNat_natCast]; exact hq
  rw [this, ok_bind]
  obtain ⟨ns, hr⟩ := h
  obtain ⟨q', h1, h2⟩ := hr.add p
  rw [h1, ok_bind]
  have hl : LList.LRel q' (xs ++ [p]) := ⟨_, h2⟩
  have hs : q'.size = xs.length + 1 := by rw [h2.size]; simp
  dsimp only
  rw [hs]
  unfold queueSteps
  by_cases h0 : xs.length = 0
  · rw [if_pos (by omega), if_pos h0]; rfl
  · obtain ⟨n, hn⟩ : ∃ n, xs.length = n + 1 := ⟨xs.length - 1, by omega⟩
    rw [if_neg (by omega), if_neg h0, hn, show (((n + 1 + 1 : Nat) : Int) - 2) = (n : Int) by omega,
      hl.getCount (by simp; omega), ok_bind]
    dsimp only
    split
    · obtain ⟨l', h3, _⟩ := hl.removeCount (k := n) (by simp; omega)
      rw [h3, ok_bind, Go.pure_def]
      congr 1
      show n + n = _
      omega
    · rw [show ((n : Int) + 1).toNat = n + 1 by omega, hl.frontCount (n + 1) (by simp; omega), ok_bind]
      rfl

end Avf
