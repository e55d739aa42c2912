import Verif.Spec.DemuxerThreads
import Verif.Lemmas.PacketPool
/-! # Helper lemmas: a goroutine that only touches packets of its own, and many of them -/
namespace Avf
open Go PacketPool
namespace Threads

/-- The packets of one goroutine. -/
abbrev Heap := Nat → Option AVPacket

/-- A packet is added, changed or given away. -/
def Heap.set (h : Heap) (p : Nat) (v : Option AVPacket) : Heap := fun q => if q = p then v else h q

theorem Heap.set_self (h : Heap) (p : Nat) (v : Option AVPacket) : h.set p v p = v := by simp [Heap.set]

theorem Heap.set_other (h : Heap) {p q : Nat} (v : Option AVPacket) (hne : q ≠ p) : h.set p v q = h q := by simp [Heap.set, hne]

theorem Heap.set_set (h : Heap) (p : Nat) (v w : Option AVPacket) : (h.set p v).set p w = h.set p w := by
  funext q
  by_cases hq : q = p <;> simp [Heap.set, hq]

/-- A goroutine with the packets `h` only touches its own, gives back blank ones, and ends with `Q`, whatever packets it gets. -/
def Safe {α : Type} : Prog α → Heap → (Heap → Go α → Prop) → Prop
  | .stop r, h, Q => Q h r
  | .get k, h, Q => ∀ p x, h p = none → BlankPacket x → Safe (k p) (h.set p (some x)) Q
  | .put p k, h, Q => (∃ x, h p = some x ∧ BlankPacket x) ∧ Safe k (h.set p none) Q
  | .load p k, h, Q => ∃ x, h p = some x ∧ Safe (k x) h Q
  | .store p f k, h, Q => ∃ x, h p = some x ∧ Safe k (h.set p (some (f x))) Q
  | .send p k, h, Q => (∃ x, h p = some x) ∧ Safe k (h.set p none) Q
  | .recv k, h, Q => (∀ p x, h p = none → Safe (k (some p)) (h.set p (some x)) Q) ∧ Safe (k none) h Q

theorem Safe.mono {α : Type} {Q R : Heap → Go α → Prop} (t : Prog α) : ∀ {h : Heap}, Safe t h Q → (∀ h r, Q h r → R h r) → Safe t h R := by
  induction t with
  | stop r => intro h hs hq; exact hq _ _ hs
  | get k ih => intro h hs hq p x h1 h2; exact ih p (hs p x h1 h2) hq
  | put p k ih => intro h hs hq; exact ⟨hs.1, ih hs.2 hq⟩
  | load p k ih => intro h hs hq; obtain ⟨x, h1, h2⟩ := hs; exact ⟨x, h1, ih x h2 hq⟩
  | store p f k ih => intro h hs hq; obtain ⟨x, h1, h2⟩ := hs; exact ⟨x, h1, ih h2 hq⟩
  | send p k ih => intro h hs hq; exact ⟨hs.1, ih hs.2 hq⟩
  | recv k ih => intro h hs hq; exact ⟨fun p x h1 => ih _ (hs.1 p x h1) hq, ih _ hs.2 hq⟩

/-- What is asked of the first part. -/
def Then {α β : Type} (f : α → Prog β) (Q : Heap → Go β → Prop) (h : Heap) : Go α → Prop
  | .ok a => Safe (f a) h Q
  | .err m => Q h (.err m)
  | .panic => Q h .panic

theorem Safe.bind {α β : Type} {f : α → Prog β} {Q : Heap → Go β → Prop} (t : Prog α) : ∀ {h : Heap},
    Safe t h (Then f Q) → Safe (t >>= f) h Q := by
  show ∀ {h : Heap}, Safe t h (Then f Q) → Safe (t.bind f) h Q
  induction t with
  | stop r =>
    intro h hs
    cases r with
    | ok a => exact hs
    | err m => exact hs
    | panic => exact hs
  | get k ih => intro h hs p x h1 h2; exact ih p (hs p x h1 h2)
  | put p k ih => intro h hs; exact ⟨hs.1, ih hs.2⟩
  | load p k ih => intro h hs; obtain ⟨x, h1, h2⟩ := hs; exact ⟨x, h1, ih x h2⟩
  | store p f k ih => intro h hs; obtain ⟨x, h1, h2⟩ := hs; exact ⟨x, h1, ih h2⟩
  | send p k ih => intro h hs; exact ⟨hs.1, ih hs.2⟩
  | recv k ih => intro h hs; exact ⟨fun p x h1 => ih _ (hs.1 p x h1), ih _ hs.2⟩

/-- The first part is known to end well. -/
theorem Safe.bindOk {α β : Type} {f : α → Prog β} {Q : Heap → Go β → Prop} {t : Prog α} {h : Heap} {R : Heap → α → Prop}
    (ht : Safe t h fun h' r => ∃ a, r = ok a ∧ R h' a) (hf : ∀ h' a, R h' a → Safe (f a) h' Q) : Safe (t >>= f) h Q := by
  refine Safe.bind t (ht.mono t ?_)
  rintro h' r ⟨a, rfl, ha⟩
  exact hf h' a ha

theorem safe_ok {α : Type} {a : α} {h : Heap} {Q : Heap → Go α → Prop} (hq : Q h (ok a)) : Safe (.stop (.ok a)) h Q := hq

theorem safe_load {β : Type} {p : Nat} {f : AVPacket → Prog β} {h : Heap} {Q : Heap → Go β → Prop} {x : AVPacket} (hx : h p = some x)
    (hf : Safe (f x) h Q) : Safe (load p >>= f) h Q := ⟨x, hx, hf⟩

theorem safe_stores {β : Type} {p : Nat} (fs : List (AVPacket → AVPacket)) : ∀ {f : Unit → Prog β} {h : Heap} {Q : Heap → Go β → Prop} {x : AVPacket},
    h p = some x → Safe (f ()) (h.set p (some (fs.foldl (fun x g => g x) x))) Q → Safe (stores p fs >>= f) h Q := by
  induction fs with
  | nil =>
    intro f h Q x hx hf
    have : h.set p (some x) = h := by
      funext q
      by_cases hq : q = p
      · subst hq; rw [Heap.set_self, hx]
      · rw [Heap.set_other _ _ hq]
    rw [List.foldl_nil, this] at hf
    exact hf
  | cons g fs ih =>
    intro f h Q x hx hf
    refine ⟨x, hx, ih (x := g x) (Heap.set_self ..) ?_⟩
    rw [Heap.set_set]
    exact hf

theorem loads_end (ps : List Nat) : ∀ {h : Heap} {xs : List AVPacket}, ps.map h = xs.map some →
    Safe (loads ps) h fun h' r => ∃ a, r = ok a ∧ h' = h ∧ a = xs := by
  induction ps with
  | nil =>
    intro h xs hx
    have : xs = [] := by simpa using hx.symm
    subst this
    exact ⟨_, rfl, rfl, rfl⟩
  | cons p ps ih =>
    intro h xs hx
    cases xs with
    | nil => simp at hx
    | cons x xs =>
      simp only [List.map_cons, List.cons.injEq] at hx
      show Safe (load p >>= fun x => loads ps >>= fun xs => pure (x :: xs)) h _
      refine safe_load hx.1 (Safe.bindOk (ih hx.2) ?_)
      rintro h' a ⟨rfl, rfl⟩
      exact ⟨_, rfl, rfl, rfl⟩

theorem safe_loads {β : Type} {ps : List Nat} {f : List AVPacket → Prog β} {h : Heap} {Q : Heap → Go β → Prop} {xs : List AVPacket}
    (hx : ps.map h = xs.map some) (hf : Safe (f xs) h Q) : Safe (loads ps >>= f) h Q := by
  refine Safe.bindOk (loads_end ps hx) ?_
  rintro h' a ⟨rfl, rfl⟩
  exact hf

theorem resetFields_eq (x : AVPacket) : resetFields.foldl (fun x g => g x) x = reset x := rfl

theorem reset_blank (x : AVPacket) : BlankPacket (reset x) := Or.inr rfl

theorem safe_free {β : Type} {p : Nat} {f : Unit → Prog β} {h : Heap} {Q : Heap → Go β → Prop} {x : AVPacket} (hx : h p = some x)
    (hf : Safe (f ()) (h.set p none) Q) : Safe (freePacket p >>= f) h Q := by
  refine Safe.bindOk (R := fun h' _ => h' = h.set p none) ?_ ?_
  · show Safe (stores p resetFields >>= fun _ => _) h _
    refine safe_stores _ hx ?_
    rw [resetFields_eq]
    refine ⟨⟨_, Heap.set_self .., reset_blank x⟩, ?_⟩
    rw [Heap.set_set]
    exact ⟨(), rfl, rfl⟩
  · rintro h' a rfl
    exact hf

theorem safe_new {β : Type} {fs : List (AVPacket → AVPacket)} {f : Nat → Prog β} {h : Heap} {Q : Heap → Go β → Prop}
    (hf : ∀ p x, h p = none → BlankPacket x → Safe (f p) (h.set p (some (fs.foldl (fun x g => g x) x))) Q) :
    Safe (newPacket fs >>= f) h Q := by
  intro p x hp hx
  refine Safe.bindOk (R := fun h' a => h' = h.set p (some (fs.foldl (fun x g => g x) x)) ∧ a = p) ?_ ?_
  · show Safe (stores p fs >>= fun _ => pure p) _ _
    refine safe_stores fs (Heap.set_self ..) ?_
    rw [Heap.set_set]
    exact ⟨p, rfl, rfl, rfl⟩
  · rintro h' a ⟨rfl, rfl⟩
    exact hf _ x hp hx

/-! ## Many goroutines -/

/-- Every goroutine has packets of its own. Those on their way are at the index after the last goroutine. -/
structure Sound {α : Type} (m : Machine α) (hs : Nat → Heap) (Q : Nat → Heap → Go α → Prop) : Prop where
  safe : ∀ i t, m.threads[i]? = some t → Safe t (hs i) (Q i)
  agree : ∀ i p x, hs i p = some x → m.pool.objs[p]? = some x
  apart : ∀ i j p, i ≠ j → hs i p ≠ none → hs j p = none
  nodup : m.pool.pool.Nodup
  blank : ∀ p ∈ m.pool.pool, (∃ x, m.pool.objs[p]? = some x ∧ BlankPacket x) ∧ ∀ i, hs i p = none
  mail : ∀ p, hs m.threads.length p ≠ none ↔ p ∈ m.mail
  mailNodup : m.mail.Nodup

/-- A packet passes from whoever has it to `j`. -/
def move (hs : Nat → Heap) (p j : Nat) (x : AVPacket) : Nat → Heap := fun a => (hs a).set p (if a = j then some x else none)

/-- What stays right when a packet passes. -/
theorem move_ok {hs : Nat → Heap} {i p : Nat} {x : AVPacket} (j : Nat) {objs : List AVPacket} {pool : List Nat} (hx : hs i p = some x)
    (agree : ∀ i p x, hs i p = some x → objs[p]? = some x) (apart : ∀ i j p, i ≠ j → hs i p ≠ none → hs j p = none)
    (blank : ∀ p ∈ pool, (∃ x, objs[p]? = some x ∧ BlankPacket x) ∧ ∀ i, hs i p = none) :
    (∀ a q y, move hs p j x a q = some y → objs[q]? = some y) ∧ (∀ a b q, a ≠ b → move hs p j x a q ≠ none → move hs p j x b q = none) ∧
    (∀ q ∈ pool, (∃ x, objs[q]? = some x ∧ BlankPacket x) ∧ ∀ a, move hs p j x a q = none) ∧
    ∀ a, a ≠ i → a ≠ j → move hs p j x a = hs a := by
  unfold move
  refine ⟨fun a q y hy => ?_, fun a b q hab ha => ?_, fun q hq => ⟨(blank q hq).1, fun a => ?_⟩, fun a h1 h2 => ?_⟩
  · by_cases hq : q = p
    · subst hq
      rw [Heap.set_self] at hy
      by_cases ha : a = j
      · rw [if_pos ha] at hy; rw [← hy]; exact agree _ _ _ hx
      · rw [if_neg ha] at hy; cases hy
    · rw [Heap.set_other _ _ hq] at hy; exact agree _ _ _ hy
  · by_cases hq : q = p
    · subst hq
      rw [Heap.set_self] at ha ⊢
      by_cases h1 : a = j
      · rw [if_neg (fun e => hab (h1.trans e.symm))]
      · rw [if_neg h1] at ha; exact absurd rfl ha
    · rw [Heap.set_other _ _ hq] at ha ⊢; exact apart a b q hab ha
  · have hne : q ≠ p := fun e => by rw [e] at hq; rw [(blank p hq).2 i] at hx; cases hx
    rw [Heap.set_other _ _ hne]; exact (blank q hq).2 a
  · rw [if_neg h2]
    funext q
    by_cases hq : q = p
    · subst hq; rw [Heap.set_self, apart i a q (Ne.symm h1) (by rw [hx]; simp)]
    · rw [Heap.set_other _ _ hq]

/-- The packets of goroutine `i` are changed. -/
def upd (hs : Nat → Heap) (i : Nat) (h : Heap) : Nat → Heap := fun j => if j = i then h else hs j

theorem upd_self (hs : Nat → Heap) (i : Nat) (h : Heap) : upd hs i h i = h := by simp [upd]

theorem upd_other (hs : Nat → Heap) {i j : Nat} (h : Heap) (hne : j ≠ i) : upd hs i h j = hs j := by simp [upd, hne]

theorem upd_safe {α : Type} {ts : List (Prog α)} {hs : Nat → Heap} {Q : Nat → Heap → Go α → Prop} {i : Nat} {t : Prog α} {h : Heap}
    (hsafe : ∀ i t, ts[i]? = some t → Safe t (hs i) (Q i)) (ht : Safe t h (Q i)) :
    ∀ j t', (ts.set i t)[j]? = some t' → Safe t' (upd hs i h j) (Q j) := by
  intro j t' hj
  by_cases hne : j = i
  · subst hne
    rw [upd_self]
    rw [List.getElem?_set] at hj
    by_cases hl : j < ts.length
    · simp only [hl, if_true, Option.some.injEq] at hj
      exact hj ▸ ht
    · simp [hl] at hj
  · rw [upd_other _ _ hne]
    rw [List.getElem?_set_ne (fun e => hne e.symm)] at hj
    exact hsafe j t' hj

theorem Sound.fresh {α : Type} {m : Machine α} {hs : Nat → Heap} {Q : Nat → Heap → Go α → Prop} (h : Sound m hs Q) (i : Nat) :
    hs i m.pool.objs.length = none := by
  cases hx : hs i m.pool.objs.length with
  | none => rfl
  | some x => have := h.agree _ _ _ hx; simp at this

/-- A goroutine gets a packet that nobody has. -/
theorem upd_apart {hs : Nat → Heap} (h : ∀ i j p, i ≠ j → hs i p ≠ none → hs j p = none) (i : Nat) {p : Nat} (x : AVPacket)
    (hp : ∀ j, j ≠ i → hs j p = none) :
    ∀ a b q, a ≠ b → upd hs i ((hs i).set p (some x)) a q ≠ none → upd hs i ((hs i).set p (some x)) b q = none := by
  intro a b q hab ha
  by_cases h1 : b = i
  · subst h1
    rw [upd_self]
    rw [upd_other _ _ hab] at ha
    by_cases hq : q = p
    · subst hq; exact absurd (hp a hab) ha
    · rw [Heap.set_other _ _ hq]; exact h a b q hab ha
  · rw [upd_other _ _ h1]
    by_cases h2 : a = i
    · subst h2
      rw [upd_self] at ha
      by_cases hq : q = p
      · subst hq; exact hp b h1
      · rw [Heap.set_other _ _ hq] at ha; exact h a b q hab ha
    · rw [upd_other _ _ h2] at ha; exact h a b q hab ha

/-- Every packet made after the first `n`, and every one of `P`, is in the pool or some goroutine has it, or is on its way. -/
def Covered {α : Type} (m : Machine α) (hs : Nat → Heap) (n : Nat) (P : List Nat) : Prop :=
  ∀ p, (n ≤ p ∧ p < m.pool.objs.length) ∨ p ∈ P → p ∈ m.pool.pool ∨ ∃ i, i ≤ m.threads.length ∧ hs i p ≠ none

theorem Sound.act {α : Type} {m m' : Machine α} {hs : Nat → Heap} {Q : Nat → Heap → Go α → Prop} (h : Sound m hs Q) (hst : m.Act m') :
    ∃ hs', Sound m' hs' Q ∧ ∀ n P, Covered m hs n P → Covered m' hs' n P := by
  have grow : ∀ {j i p q : Nat} {x : AVPacket}, hs j q ≠ none → upd hs i ((hs i).set p (some x)) j q ≠ none := by
    intro j i p q x hn
    by_cases hj : j = i
    · subst hj
      rw [upd_self]
      by_cases hq : q = p
      · subst hq; rw [Heap.set_self]; simp
      · rw [Heap.set_other _ _ hq]; exact hn
    · rw [upd_other _ _ hj]; exact hn
  have post : ∀ {i : Nat} {t u : Prog α} {g : Heap}, m.threads[i]? = some t →
      ∀ p, upd hs i g (m.threads.set i u).length p ≠ none ↔ p ∈ m.mail := by
    intro i t u g hi p
    have hl := (List.getElem?_eq_some_iff.1 hi).1
    rw [List.length_set, upd_other _ _ (by omega)]
    exact h.mail p
  cases hst with
  | reuse i p k hi hp =>
    obtain ⟨⟨x, hx, hb⟩, hn⟩ := h.blank p hp
    refine ⟨upd hs i ((hs i).set p (some x)), ⟨upd_safe h.safe (h.safe i _ hi p x (hn i) hb), ?_,
      upd_apart h.apart i x fun j _ => hn j, h.nodup.erase _, ?_, post hi, h.mailNodup⟩, ?_⟩
    · intro j q y hy
      by_cases hj : j = i
      · subst hj
        rw [upd_self] at hy
        by_cases hq : q = p
        · subst hq; rw [Heap.set_self] at hy; exact hx.trans hy
        · rw [Heap.set_other _ _ hq] at hy; exact h.agree _ _ _ hy
      · rw [upd_other _ _ hj] at hy; exact h.agree _ _ _ hy
    · intro q hq
      obtain ⟨hne, hm⟩ := (List.Nodup.mem_erase_iff h.nodup).1 hq
      obtain ⟨h1, h2⟩ := h.blank q hm
      refine ⟨h1, fun j => ?_⟩
      by_cases hj : j = i
      · subst hj; rw [upd_self, Heap.set_other _ _ hne]; exact h2 j
      · rw [upd_other _ _ hj]; exact h2 j
    · intro n P hc q hq
      have hi' : i < (m.threads.set i (k p)).length := by rw [List.length_set]; exact (List.getElem?_eq_some_iff.1 hi).1
      by_cases hqp : q = p
      · subst hqp
        exact Or.inr ⟨i, Nat.le_of_lt hi', by rw [upd_self, Heap.set_self]; simp⟩
      · rcases hc q hq with h1 | ⟨j, h1, h2⟩
        · exact Or.inl ((List.Nodup.mem_erase_iff h.nodup).2 ⟨hqp, h1⟩)
        · exact Or.inr ⟨j, by rw [List.length_set]; exact h1, grow h2⟩
  | make i k hi =>
    have hold : ∀ (q : Nat) (y : AVPacket), m.pool.objs[q]? = some y → (m.pool.objs ++ [({} : AVPacket)])[q]? = some y := by
      intro q y hy
      rw [List.getElem?_append_left (List.getElem?_eq_some_iff.1 hy).1, hy]
    refine ⟨upd hs i ((hs i).set m.pool.objs.length (some {})), ⟨upd_safe h.safe (h.safe i _ hi _ {} (h.fresh i) (Or.inl rfl)), ?_,
      upd_apart h.apart i _ fun j _ => h.fresh j, h.nodup, ?_, post hi, h.mailNodup⟩, ?_⟩
    · intro j q y hy
      show (m.pool.objs ++ [({} : AVPacket)])[q]? = some y
      by_cases hj : j = i
      · subst hj
        rw [upd_self] at hy
        by_cases hq : q = m.pool.objs.length
        · subst hq; rw [Heap.set_self] at hy; rw [← hy]; simp
        · rw [Heap.set_other _ _ hq] at hy; exact hold _ _ (h.agree _ _ _ hy)
      · rw [upd_other _ _ hj] at hy; exact hold _ _ (h.agree _ _ _ hy)
    · intro q hq
      obtain ⟨⟨x, hx, hb⟩, h2⟩ := h.blank q hq
      have hne : q ≠ m.pool.objs.length := fun e => by rw [e] at hx; simp at hx
      refine ⟨⟨x, hold _ _ hx, hb⟩, fun j => ?_⟩
      by_cases hj : j = i
      · subst hj; rw [upd_self, Heap.set_other _ _ hne]; exact h2 j
      · rw [upd_other _ _ hj]; exact h2 j
    · intro n P hc q hq
      have hi' : i < (m.threads.set i (k m.pool.objs.length)).length := by rw [List.length_set]; exact (List.getElem?_eq_some_iff.1 hi).1
      by_cases hqp : q = m.pool.objs.length
      · subst hqp
        exact Or.inr ⟨i, Nat.le_of_lt hi', by rw [upd_self, Heap.set_self]; simp⟩
      · have hq' : (n ≤ q ∧ q < m.pool.objs.length) ∨ q ∈ P := by
          refine hq.imp_left fun ⟨h1, h2⟩ => ⟨h1, ?_⟩
          have : q < (m.pool.objs ++ [({} : AVPacket)]).length := h2
          rw [List.length_append, List.length_singleton] at this
          omega
        rcases hc q hq' with h1 | ⟨j, h1, h2⟩
        · exact Or.inl h1
        · exact Or.inr ⟨j, by rw [List.length_set]; exact h1, grow h2⟩
  | put i p k hi =>
    obtain ⟨⟨x, hx, hb⟩, hk⟩ := h.safe i _ hi
    have hnp : p ∉ m.pool.pool := fun hm => by rw [(h.blank p hm).2 i] at hx; cases hx
    refine ⟨upd hs i ((hs i).set p none), ⟨upd_safe h.safe hk, ?_, ?_, ?_, ?_, post hi, h.mailNodup⟩, ?_⟩
    · intro j q y hy
      by_cases hj : j = i
      · subst hj
        rw [upd_self] at hy
        by_cases hq : q = p
        · subst hq; rw [Heap.set_self] at hy; cases hy
        · rw [Heap.set_other _ _ hq] at hy; exact h.agree _ _ _ hy
      · rw [upd_other _ _ hj] at hy; exact h.agree _ _ _ hy
    · intro a b q hab ha
      by_cases h1 : b = i
      · subst h1
        rw [upd_self]
        rw [upd_other _ _ hab] at ha
        by_cases hq : q = p
        · subst hq; exact Heap.set_self ..
        · rw [Heap.set_other _ _ hq]; exact h.apart a b q hab ha
      · rw [upd_other _ _ h1]
        by_cases h2 : a = i
        · subst h2
          rw [upd_self] at ha
          by_cases hq : q = p
          · subst hq; exact absurd (Heap.set_self ..) ha
          · rw [Heap.set_other _ _ hq] at ha; exact h.apart a b q hab ha
        · rw [upd_other _ _ h2] at ha; exact h.apart a b q hab ha
    · show (m.pool.pool ++ [p]).Nodup
      rw [List.nodup_append]
      exact ⟨h.nodup, List.nodup_singleton p, fun a ha b hb e => hnp (by rw [List.mem_singleton] at hb; exact hb ▸ e ▸ ha)⟩
    · intro q hq
      rcases List.mem_append.1 hq with hq | hq
      · obtain ⟨h1, h2⟩ := h.blank q hq
        have hne : q ≠ p := fun e => hnp (e ▸ hq)
        refine ⟨h1, fun j => ?_⟩
        by_cases hj : j = i
        · subst hj; rw [upd_self, Heap.set_other _ _ hne]; exact h2 j
        · rw [upd_other _ _ hj]; exact h2 j
      · rw [List.mem_singleton] at hq
        subst hq
        refine ⟨⟨x, h.agree _ _ _ hx, hb⟩, fun j => ?_⟩
        by_cases hj : j = i
        · subst hj; rw [upd_self]; exact Heap.set_self ..
        · rw [upd_other _ _ hj]; exact h.apart i j q (Ne.symm hj) (by rw [hx]; simp)
    · intro n P hc q hq
      rcases hc q hq with h1 | ⟨j, h1, h2⟩
      · exact Or.inl (List.mem_append_left _ h1)
      · by_cases hqp : q = p
        · subst hqp
          exact Or.inl (List.mem_append_right _ (List.mem_singleton.2 rfl))
        · refine Or.inr ⟨j, by rw [List.length_set]; exact h1, ?_⟩
          by_cases hj : j = i
          · subst hj; rw [upd_self, Heap.set_other _ _ hqp]; exact h2
          · rw [upd_other _ _ hj]; exact h2
  | load i p k x hi hx =>
    obtain ⟨y, hy, hk⟩ := h.safe i _ hi
    have e : y = x := Option.some.inj ((h.agree _ _ _ hy).symm.trans hx)
    subst e
    have e : upd hs i (hs i) = hs := by
      funext j
      by_cases hj : j = i
      · subst hj; rw [upd_self]
      · rw [upd_other _ _ hj]
    refine ⟨hs, ⟨?_, h.agree, h.apart, h.nodup, h.blank, by rw [List.length_set]; exact h.mail, h.mailNodup⟩, fun n P hc q hq => ?_⟩
    · have := upd_safe h.safe hk
      rwa [e] at this
    · exact (hc q hq).imp_right fun ⟨j, h1, h2⟩ => ⟨j, by rw [List.length_set]; exact h1, h2⟩
  | store i p f k x hi hx =>
    obtain ⟨y, hy, hk⟩ := h.safe i _ hi
    have e : y = x := Option.some.inj ((h.agree _ _ _ hy).symm.trans hx)
    subst e
    have hmine : ∀ j, j ≠ i → hs j p = none := fun j hj => h.apart i j p (Ne.symm hj) (by rw [hy]; simp)
    have hnp : ∀ q ∈ m.pool.pool, p ≠ q := fun q hq e => by subst e; rw [(h.blank p hq).2 i] at hy; cases hy
    refine ⟨upd hs i ((hs i).set p (some (f y))), ⟨upd_safe h.safe hk, ?_, upd_apart h.apart i _ hmine, h.nodup, ?_, post hi, h.mailNodup⟩, ?_⟩
    · intro j q z hz
      show (m.pool.objs.modify p f)[q]? = some z
      by_cases hj : j = i
      · subst hj
        rw [upd_self] at hz
        by_cases hq : q = p
        · subst hq
          rw [Heap.set_self] at hz
          rw [modify_self f hx, hz]
        · rw [Heap.set_other _ _ hq] at hz
          rw [modify_other f (Ne.symm hq)]; exact h.agree _ _ _ hz
      · rw [upd_other _ _ hj] at hz
        have hq : p ≠ q := fun e => by subst e; rw [hmine j hj] at hz; cases hz
        rw [modify_other f hq]; exact h.agree _ _ _ hz
    · intro q hq
      obtain ⟨⟨z, hz, hb⟩, h2⟩ := h.blank q hq
      have hne := hnp q hq
      refine ⟨⟨z, (modify_other f hne).trans hz, hb⟩, fun j => ?_⟩
      by_cases hj : j = i
      · subst hj; rw [upd_self, Heap.set_other _ _ (Ne.symm hne)]; exact h2 j
      · rw [upd_other _ _ hj]; exact h2 j
    · intro n P hc q hq
      have hq' : (n ≤ q ∧ q < m.pool.objs.length) ∨ q ∈ P := by
        refine hq.imp_left fun ⟨h1, h2⟩ => ⟨h1, ?_⟩
        have : q < (m.pool.objs.modify p f).length := h2
        rwa [List.length_modify] at this
      exact (hc q hq').imp_right fun ⟨j, h1, h2⟩ => ⟨j, by rw [List.length_set]; exact h1, grow h2⟩
  | send i p k hi =>
    obtain ⟨⟨x, hx⟩, hk⟩ := h.safe i _ hi
    have hl := (List.getElem?_eq_some_iff.1 hi).1
    obtain ⟨m1, m2, m3, m4⟩ := move_ok m.threads.length hx h.agree h.apart h.blank
    have hnm : p ∉ m.mail := fun hm => (h.mail p).2 hm (h.apart i _ p (by omega) (by rw [hx]; simp))
    refine ⟨move hs p m.threads.length x, ⟨fun a t ha => ?_, m1, m2, h.nodup, m3, fun q => ?_, ?_⟩, fun n P hc q hq => ?_⟩
    · have ha' : a < m.threads.length := by have := (List.getElem?_eq_some_iff.1 ha).1; rwa [List.length_set] at this
      by_cases hai : a = i
      · subst hai
        rw [List.getElem?_set_self hl] at ha
        cases ha
        have e : move hs p m.threads.length x a = (hs a).set p none := by
          unfold move
          rw [if_neg (by omega)]
        rw [e]
        exact hk
      · rw [List.getElem?_set_ne (Ne.symm hai)] at ha
        rw [m4 a hai (by omega)]
        exact h.safe a t ha
    · rw [List.length_set]
      unfold move
      rw [if_pos rfl]
      by_cases hq : q = p
      · subst hq; rw [Heap.set_self]; simp
      · rw [Heap.set_other _ _ hq, h.mail q]
        simp [hq]
    · show (m.mail ++ [p]).Nodup
      rw [List.nodup_append]
      exact ⟨h.mailNodup, List.nodup_singleton p, fun a ha b hb e => hnm (by rw [List.mem_singleton] at hb; exact hb ▸ e ▸ ha)⟩
    · refine (hc q hq).imp_right fun ⟨j, h1, h2⟩ => ?_
      rw [List.length_set]
      by_cases hqp : q = p
      · subst hqp
        exact ⟨m.threads.length, Nat.le_refl _, by unfold move; rw [Heap.set_self, if_pos rfl]; simp⟩
      · exact ⟨j, h1, by unfold move; rw [Heap.set_other _ _ hqp]; exact h2⟩
  | recv i p k hi hp =>
    obtain ⟨x, hx⟩ := Option.ne_none_iff_exists'.1 ((h.mail p).2 hp)
    have hl := (List.getElem?_eq_some_iff.1 hi).1
    have hk := (h.safe i _ hi).1 p x (h.apart m.threads.length i p (by omega) (by rw [hx]; simp))
    obtain ⟨m1, m2, m3, m4⟩ := move_ok i hx h.agree h.apart h.blank
    refine ⟨move hs p i x, ⟨fun a t ha => ?_, m1, m2, h.nodup, m3, fun q => ?_, h.mailNodup.erase _⟩, fun n P hc q hq => ?_⟩
    · have ha' : a < m.threads.length := by have := (List.getElem?_eq_some_iff.1 ha).1; rwa [List.length_set] at this
      by_cases hai : a = i
      · subst hai
        rw [List.getElem?_set_self hl] at ha
        cases ha
        have e : move hs p a x a = (hs a).set p (some x) := by
          unfold move
          rw [if_pos rfl]
        rw [e]
        exact hk
      · rw [List.getElem?_set_ne (Ne.symm hai)] at ha
        rw [m4 a (by omega) hai]
        exact h.safe a t ha
    · rw [List.length_set, List.Nodup.mem_erase_iff h.mailNodup]
      unfold move
      rw [if_neg (by omega)]
      by_cases hq : q = p
      · subst hq; rw [Heap.set_self]; simp
      · rw [Heap.set_other _ _ hq, h.mail q]
        simp [hq]
    · refine (hc q hq).imp_right fun ⟨j, h1, h2⟩ => ?_
      rw [List.length_set]
      by_cases hqp : q = p
      · subst hqp
        exact ⟨i, by omega, by unfold move; rw [Heap.set_self, if_pos rfl]; simp⟩
      · exact ⟨j, h1, by unfold move; rw [Heap.set_other _ _ hqp]; exact h2⟩
  | nothing i k hi =>
    have hk := (h.safe i _ hi).2
    have e : upd hs i (hs i) = hs := by
      funext j
      by_cases hj : j = i
      · subst hj; rw [upd_self]
      · rw [upd_other _ _ hj]
    refine ⟨hs, ⟨?_, h.agree, h.apart, h.nodup, h.blank, by rw [List.length_set]; exact h.mail, h.mailNodup⟩, fun n P hc q hq => ?_⟩
    · have := upd_safe h.safe hk
      rwa [e] at this
    · exact (hc q hq).imp_right fun ⟨j, h1, h2⟩ => ⟨j, by rw [List.length_set]; exact h1, h2⟩

theorem Sound.step {α : Type} {m m' : Machine α} {hs : Nat → Heap} {Q : Nat → Heap → Go α → Prop} (h : Sound m hs Q) (hst : m.Step m') :
    ∃ hs', Sound m' hs' Q := by
  cases hst with
  | act _ ha => obtain ⟨hs', h', _⟩ := h.act ha; exact ⟨hs', h'⟩
  | collect keep =>
    exact ⟨hs, h.safe, h.agree, h.apart, h.nodup.filter _, fun q hq => h.blank q (List.mem_of_mem_filter hq), h.mail, h.mailNodup⟩

theorem Sound.acts {α : Type} {m m' : Machine α} {hs : Nat → Heap} {Q : Nat → Heap → Go α → Prop} (h : Sound m hs Q) (hst : m.Acts m') :
    ∃ hs', Sound m' hs' Q ∧ ∀ n P, Covered m hs n P → Covered m' hs' n P := by
  induction hst with
  | refl => exact ⟨hs, h, fun _ _ hc => hc⟩
  | step a b _ hs' ih =>
    obtain ⟨hs1, h1, c1⟩ := ih
    obtain ⟨hs2, h2, c2⟩ := h1.act hs'
    exact ⟨hs2, h2, fun n P hc => c2 n P (c1 n P hc)⟩

theorem Sound.steps {α : Type} {m m' : Machine α} {hs : Nat → Heap} {Q : Nat → Heap → Go α → Prop} (h : Sound m hs Q) (hst : m.Steps m') :
    ∃ hs', Sound m' hs' Q := by
  induction hst with
  | refl => exact ⟨hs, h⟩
  | step a b _ _ ih => obtain ⟨hs1, h1⟩ := ih; exact h1.step ‹_›

theorem Sound.raceFree {α : Type} {m : Machine α} {hs : Nat → Heap} {Q : Nat → Heap → Go α → Prop} (h : Sound m hs Q) : m.RaceFree := by
  have own : ∀ i s p, m.threads[i]? = some s → s.touches = some p → ∃ x, hs i p = some x := by
    intro i s p hi hp
    have := h.safe i s hi
    cases s with
    | stop r => cases hp
    | get k => cases hp
    | put q k => cases hp; exact ⟨_, this.1.choose_spec.1⟩
    | load q k => cases hp; exact ⟨_, this.choose_spec.1⟩
    | store q f k => cases hp; exact ⟨_, this.choose_spec.1⟩
    | send q k => cases hp; exact this.1
    | recv k => cases hp
  refine ⟨fun i j s t p q hij hi hj hp hq e => ?_, fun i s p hi hp => ?_⟩
  · subst e
    obtain ⟨x, hx⟩ := own i s p hi hp
    obtain ⟨y, hy⟩ := own j t p hj hq
    rw [h.apart i j p hij (by rw [hx]; simp)] at hy
    cases hy
  · obtain ⟨x, hx⟩ := own i s p hi hp
    refine ⟨fun hm => ?_, fun hm => ?_, (List.getElem?_eq_some_iff.1 (h.agree _ _ _ hx)).1⟩
    · rw [(h.blank p hm).2 i] at hx
      cases hx
    · have hl := (List.getElem?_eq_some_iff.1 hi).1
      exact (h.mail p).2 hm (h.apart i _ p (by omega) (by rw [hx]; simp))

/-- A goroutine can be brought to its end. -/
theorem Sound.finish {α : Type} {Q : Nat → Heap → Go α → Prop} (i : Nat) (t : Prog α) : ∀ {m : Machine α} {hs : Nat → Heap}, Sound m hs Q →
    m.threads[i]? = some t → ∃ m' r, m.Steps m' ∧ m'.threads[i]? = some (.stop r) := by
  have trans : ∀ {a b c : Machine α}, a.Step b → b.Steps c → a.Steps c := by
    intro a b c h1 h2
    induction h2 with
    | refl => exact .step _ _ _ (.refl _) h1
    | step x y _ hxy ih => exact .step _ _ _ ih hxy
  have self : ∀ {ts : List (Prog α)} {u v : Prog α}, ts[i]? = some u → (ts.set i v)[i]? = some v := by
    intro ts u v hu
    rw [List.getElem?_set_self (List.getElem?_eq_some_iff.1 hu).1]
  induction t with
  | stop r => intro m hs _ hi; exact ⟨m, r, .refl _, hi⟩
  | get k ih =>
    intro m hs h hi
    have hst := Machine.Step.act _ _ (Machine.Act.make m i k hi)
    obtain ⟨hs', h'⟩ := h.step hst
    obtain ⟨m', r, h1, h2⟩ := ih _ h' (self hi)
    exact ⟨m', r, trans hst h1, h2⟩
  | put p k ih =>
    intro m hs h hi
    have hst := Machine.Step.act _ _ (Machine.Act.put m i p k hi)
    obtain ⟨hs', h'⟩ := h.step hst
    obtain ⟨m', r, h1, h2⟩ := ih h' (self hi)
    exact ⟨m', r, trans hst h1, h2⟩
  | load p k ih =>
    intro m hs h hi
    obtain ⟨x, hx, _⟩ := h.safe i _ hi
    have hst := Machine.Step.act _ _ (Machine.Act.load m i p k x hi (h.agree _ _ _ hx))
    obtain ⟨hs', h'⟩ := h.step hst
    obtain ⟨m', r, h1, h2⟩ := ih x h' (self hi)
    exact ⟨m', r, trans hst h1, h2⟩
  | store p f k ih =>
    intro m hs h hi
    obtain ⟨x, hx, _⟩ := h.safe i _ hi
    have hst := Machine.Step.act _ _ (Machine.Act.store m i p f k x hi (h.agree _ _ _ hx))
    obtain ⟨hs', h'⟩ := h.step hst
    obtain ⟨m', r, h1, h2⟩ := ih h' (self hi)
    exact ⟨m', r, trans hst h1, h2⟩
  | send p k ih =>
    intro m hs h hi
    have hst := Machine.Step.act _ _ (Machine.Act.send m i p k hi)
    obtain ⟨hs', h'⟩ := h.step hst
    obtain ⟨m', r, h1, h2⟩ := ih h' (self hi)
    exact ⟨m', r, trans hst h1, h2⟩
  | recv k ih =>
    intro m hs h hi
    have hst := Machine.Step.act _ _ (Machine.Act.nothing m i k hi)
    obtain ⟨hs', h'⟩ := h.step hst
    obtain ⟨m', r, h1, h2⟩ := ih none h' (self hi)
    exact ⟨m', r, trans hst h1, h2⟩

end Threads
end Avf
