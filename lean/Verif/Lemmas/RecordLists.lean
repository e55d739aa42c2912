import Verif.Spec.RecordLists
import Verif.Model.ListMemory
import Verif.Lemmas.HevcRecord
/-!
# Lemmas: the parameter set lists of the HEVC record
-/
namespace Avf
open Go

/-! ## The closed form -/

theorem setsOfType_append (t : Nat) (a b : List (Nat × Bytes)) : setsOfType t (a ++ b) = setsOfType t a ++ setsOfType t b := by
  simp [setsOfType]

/-- What is known of the record after the sets `es`. -/
structure Listed (grow : Nat → Nat) (es : List (Nat × Bytes)) (r : HEVCRecord) : Prop where
  vps : r.vpsList = setsOfType 32 es
  pps : r.ppsList = setsOfType 34 es
  cap : r.ppsCap = appendCap grow r.ppsList.length
  sps : (setsOfType 33 es = [] ∧ r.spsList = []) ∨
    ∃ before s after, es = before ++ (33, s) :: after ∧ setsOfType 33 after = [] ∧
      (setsOfType 34 after = [] → r.shared = decide ((setsOfType 34 before).length < appendCap grow (setsOfType 34 before).length)) ∧
      r.spsList = setsOfType 34 before ++
        [if (setsOfType 34 before).length < appendCap grow (setsOfType 34 before).length then ((setsOfType 34 after).head?).getD s else s]

theorem Listed.step {grow : Nat → Nat} {es : List (Nat × Bytes)} {r : HEVCRecord} (h : Listed grow es r) (t : Byte) (u : Bytes) :
    Listed grow (es ++ [(t.toNat, u)]) (hevcAdd grow t r u) := by
  have tn : ∀ n : Nat, n < 256 → (t.toNat = n ↔ t = BitVec.ofNat 8 n) := by
    intro n hn
    constructor
    · intro e; apply BitVec.eq_of_toNat_eq; rw [e, BitVec.toNat_ofNat]; omega
    · rintro rfl; rw [BitVec.toNat_ofNat]; omega
  have one : ∀ n : Nat, setsOfType n [(t.toNat, u)] = if t.toNat = n then [u] else [] := by
    intro n
    by_cases e : t.toNat = n <;> simp [setsOfType, e]
  -- an event that is neither SPS nor PPS
  have keep : t.toNat ≠ 33 → t.toNat ≠ 34 → ((setsOfType 33 (es ++ [(t.toNat, u)]) = [] ∧ r.spsList = []) ∨
    ∃ before s after, es ++ [(t.toNat, u)] = before ++ (33, s) :: after ∧ setsOfType 33 after = [] ∧
      (setsOfType 34 after = [] → r.shared = decide ((setsOfType 34 before).length < appendCap grow (setsOfType 34 before).length)) ∧
      r.spsList = setsOfType 34 before ++
        [if (setsOfType 34 before).length < appendCap grow (setsOfType 34 before).length then ((setsOfType 34 after).head?).getD s else s]) := by
    intro h3 h4
    rcases h.sps with ⟨e1, e2⟩ | ⟨before, s, after, e1, e2, e3, e4⟩
    · exact .inl ⟨by rw [setsOfType_append, one, if_neg h3, e1]; rfl, e2⟩
    · refine .inr ⟨before, s, after ++ [(t.toNat, u)], by rw [e1]; simp, ?_, ?_, ?_⟩
      · rw [setsOfType_append, one, if_neg h3, e2]; rfl
      · rw [setsOfType_append, one, if_neg h4, List.append_nil]; exact e3
      · rw [setsOfType_append, one, if_neg h4, List.append_nil]; exact e4
  unfold hevcAdd
  by_cases h32 : t = 32
  · have k2 : t.toNat = 32 := (tn 32 (by decide)).2 h32
    rw [if_pos h32]
    exact {
      vps := by rw [setsOfType_append, one, if_pos k2, ← h.vps]
      pps := by rw [setsOfType_append, one, if_neg (by omega), List.append_nil]; exact h.pps
      cap := h.cap
      sps := keep (by omega) (by omega) }
  rw [if_neg h32]
  by_cases h33 : t = 33
  · have k3 : t.toNat = 33 := (tn 33 (by decide)).2 h33
    rw [if_pos h33]
    exact {
      vps := by rw [setsOfType_append, one, if_neg (by omega), List.append_nil]; exact h.vps
      pps := by rw [setsOfType_append, one, if_neg (by omega), List.append_nil]; exact h.pps
      cap := h.cap
      sps := .inr ⟨es, u, [], by rw [k3], rfl, fun _ => by rw [← h.pps, ← h.cap], by rw [← h.pps]; simp [setsOfType]⟩ }
  rw [if_neg h33]
  by_cases h34 : t = 34
  · have k4 : t.toNat = 34 := (tn 34 (by decide)).2 h34
    rw [if_pos h34]
    have hv : r.vpsList = setsOfType 32 (es ++ [(t.toNat, u)]) := by
      rw [setsOfType_append, one, if_neg (by omega), List.append_nil]; exact h.vps
    have hp : r.ppsList ++ [u] = setsOfType 34 (es ++ [(t.toNat, u)]) := by rw [setsOfType_append, one, if_pos k4, ← h.pps]
    -- the new SPS list, if it is the old one with a possible replacement
    have hsps : ∀ (l : List Bytes) (sh : Bool),
        (l = if r.ppsList.length < r.ppsCap ∧ r.shared = true ∧ r.spsList.length = r.ppsList.length + 1 then r.spsList.set r.ppsList.length u else r.spsList) →
        ((setsOfType 33 (es ++ [(t.toNat, u)]) = [] ∧ l = []) ∨
        ∃ before s after, es ++ [(t.toNat, u)] = before ++ (33, s) :: after ∧ setsOfType 33 after = [] ∧
          (setsOfType 34 after = [] → sh = decide ((setsOfType 34 before).length < appendCap grow (setsOfType 34 before).length)) ∧
          l = setsOfType 34 before ++
            [if (setsOfType 34 before).length < appendCap grow (setsOfType 34 before).length then ((setsOfType 34 after).head?).getD s else s]) := by
      intro l sh hl
      rcases h.sps with ⟨e1, e2⟩ | ⟨before, s, after, e1, e2, e3, e4⟩
      · refine .inl ⟨by rw [setsOfType_append, one, if_neg (by omega), e1]; rfl, ?_⟩
        rw [hl, e2]
        simp
      · refine .inr ⟨before, s, after ++ [(t.toNat, u)], by rw [e1]; simp, ?_, ?_, ?_⟩
        · rw [setsOfType_append, one, if_neg (by omega), e2]; rfl
        · intro e
          rw [setsOfType_append, one, if_pos k4] at e
          simp at e
        · have hpl : r.ppsList = setsOfType 34 before ++ setsOfType 34 after := by
            rw [h.pps, e1, setsOfType_append]
            congr 1
          rw [setsOfType_append, one, if_pos k4]
          cases ha : setsOfType 34 after with
          | nil =>
            rw [ha, List.append_nil] at hpl
            have e3 := e3 ha
            rw [ha] at e4
            simp only [List.head?_nil, Option.getD_none, ite_self] at e4
            rw [hl, e4, hpl, h.cap, hpl, e3]
            by_cases hc : (setsOfType 34 before).length < appendCap grow (setsOfType 34 before).length
            · rw [if_pos ⟨hc, by simpa using hc, by simp⟩, if_pos hc, List.set_append_right _ _ (by omega)]
              simp
            · rw [if_neg fun h => hc h.1, if_neg hc]
          | cons p ps =>
            rw [ha] at e4 hpl
            have hlen : r.spsList.length ≠ r.ppsList.length + 1 := by rw [e4, hpl]; simp
            rw [hl, if_neg fun h => hlen h.2.2, e4]
            rfl
    by_cases hc : r.ppsList.length < r.ppsCap
    · rw [if_pos hc]
      exact {
        vps := hv, pps := hp
        cap := by
          show r.ppsCap = appendCap grow (r.ppsList ++ [u]).length
          rw [List.length_append, List.length_singleton, appendCap, ← h.cap, if_pos hc]
        sps := hsps _ _ (by simp only [hc, true_and]) }
    · rw [if_neg hc]
      exact {
        vps := hv, pps := hp
        cap := by
          show max (r.ppsList.length + 1) (grow (r.ppsList.length + 1)) = appendCap grow (r.ppsList ++ [u]).length
          rw [List.length_append, List.length_singleton, appendCap, ← h.cap, if_neg hc]
        sps := hsps _ _ (by rw [if_neg fun h => hc h.1]) }
  · have k2 : t.toNat ≠ 32 := fun e => h32 ((tn 32 (by decide)).1 e)
    have k3 : t.toNat ≠ 33 := fun e => h33 ((tn 33 (by decide)).1 e)
    have k4 : t.toNat ≠ 34 := fun e => h34 ((tn 34 (by decide)).1 e)
    rw [if_neg h34]
    exact {
      vps := by rw [setsOfType_append, one, if_neg k2, List.append_nil]; exact h.vps
      pps := by rw [setsOfType_append, one, if_neg k4, List.append_nil]; exact h.pps
      cap := h.cap
      sps := keep k3 k4 }

theorem and3F_mod (t : Byte) : (t &&& 0x3F).toNat = t.toNat % 64 := by
  have : ∀ t : Fin 256, ((BitVec.ofFin (w := 8) t) &&& 0x3F).toNat = t.val % 64 := by decide +kernel
  exact this t.toFin

theorem Listed.array {grow : Nat → Nat} {es : List (Nat × Bytes)} {r : HEVCRecord} (h : Listed grow es r) (x : Byte × List Bytes) :
    Listed grow (es ++ x.2.map fun u => (x.1.toNat % 64, [0, 0, 0, 1] ++ u)) (hevcArrayAdd grow r x) := by
  obtain ⟨t, us⟩ := x
  unfold hevcArrayAdd
  dsimp only
  induction us generalizing es r with
  | nil => simpa using h
  | cons u us ih =>
    have := h.step (t &&& 0x3F) (startCoded u)
    rw [and3F_mod] at this
    have := ih this
    simpa [startCoded] using this

theorem Listed.arrays {grow : Nat → Nat} (xs : List (Byte × List Bytes)) {es : List (Nat × Bytes)} {r : HEVCRecord} (h : Listed grow es r) :
    Listed grow (es ++ recordSets xs) (xs.foldl (hevcArrayAdd grow) r) := by
  induction xs generalizing es r with
  | nil => simpa [recordSets] using h
  | cons x xs ih =>
    have := ih (h.array x)
    simpa [recordSets] using this

/-! ## Memory -/

/-- The lists in memory and as values. -/
structure SameLists (l : SetLists) (r : HEVCRecord) : Prop where
  ltv : l.vps.arr < l.mem.length
  lts : l.sps.arr < l.mem.length
  ltp : l.pps.arr < l.mem.length
  lenv : l.vps.len ≤ (l.mem.array l.vps).length
  lens : l.sps.len ≤ (l.mem.array l.sps).length
  lenp : l.pps.len ≤ (l.mem.array l.pps).length
  vps : l.mem.view l.vps = r.vpsList
  sps : l.mem.view l.sps = r.spsList
  pps : l.mem.view l.pps = r.ppsList
  cap : (l.mem.array l.pps).length = r.ppsCap
  apartS : l.vps.arr = l.sps.arr → l.mem.array l.vps = []
  apartP : l.vps.arr = l.pps.arr → l.mem.array l.vps = []
  joint : l.sps.arr = l.pps.arr → l.sps.len ≤ l.pps.len ∨ (l.sps.len = l.pps.len + 1 ∧ r.shared = true)
  shared : r.shared = true → l.sps.len = l.pps.len + 1 → l.sps.arr = l.pps.arr
  ahead : l.sps.len ≤ l.pps.len + 1

theorem array_set_ne (m : SetMem) (i : Nat) (a : List Bytes) (s : SetSlice) (h : s.arr ≠ i) :
    SetMem.array (m.set i a) s = m.array s := by
  unfold SetMem.array
  rw [List.getElem?_set_ne (Ne.symm h)]

theorem array_set_eq (m : SetMem) (a : List Bytes) (s : SetSlice) (h : s.arr < m.length) :
    SetMem.array (m.set s.arr a) s = a := by
  unfold SetMem.array
  rw [List.getElem?_set_self h]; rfl

theorem array_push (m : SetMem) (a : List Bytes) (s : SetSlice) (h : s.arr < m.length) :
    SetMem.array (m ++ [a]) s = m.array s := by
  unfold SetMem.array
  rw [List.getElem?_append_left h]

theorem array_new (m : SetMem) (a : List Bytes) (n : Nat) : SetMem.array (m ++ [a]) ⟨m.length, n⟩ = a := by
  unfold SetMem.array
  simp

theorem view_len {l : SetMem} {s : SetSlice} (h : s.len ≤ (l.array s).length) : (l.view s).length = s.len := by
  unfold SetMem.view; rw [List.length_take]; omega

theorem take_set_end (a : List Bytes) (n : Nat) (x : Bytes) (h : n < a.length) : (a.set n x).take (n + 1) = a.take n ++ [x] := by
  rw [List.take_set, List.take_add_one, List.getElem?_eq_getElem h]
  rw [List.set_append_right _ _ (by rw [List.length_take]; omega)]
  simp [List.length_take, Nat.min_eq_left (Nat.le_of_lt h)]

theorem take_set_ge (a : List Bytes) (n k : Nat) (x : Bytes) (h : k ≤ n) : (a.set n x).take k = a.take k :=
  List.take_set_of_le h

theorem view_set_ne (m : SetMem) (i : Nat) (a : List Bytes) (s : SetSlice) (h : s.arr ≠ i) : SetMem.view (m.set i a) s = m.view s := by
  unfold SetMem.view; rw [array_set_ne m i a s h]

theorem view_push (m : SetMem) (a : List Bytes) (s : SetSlice) (h : s.arr < m.length) : SetMem.view (m ++ [a]) s = m.view s := by
  unfold SetMem.view; rw [array_push m a s h]

/-- The lists after one step. -/
theorem SameLists.step {grow : Nat → Nat} {l : SetLists} {r : HEVCRecord} (h : SameLists l r) (t : Byte) (u : Bytes) :
    SameLists (l.add grow t u) (hevcAdd grow t r u) := by
  obtain ⟨m, v, s, p⟩ := l
  obtain ⟨ltv, lts, ltp, lenv, lens, lenp, hv, hs, hp, hcap, apS, apP, joint, shared, ahead⟩ := h
  dsimp only at *
  have hpl : r.ppsList.length = p.len := by rw [← hp]; exact view_len lenp
  have hsl : r.spsList.length = s.len := by rw [← hs]; exact view_len lens
  unfold SetLists.add hevcAdd
  dsimp only
  by_cases h32 : t = 32
  · rw [if_pos h32, if_pos h32]
    unfold SetMem.append
    by_cases hc : v.len < (m.array v).length
    · rw [if_pos hc]
      have ns : s.arr ≠ v.arr := fun e => by rw [apS e.symm] at hc; simp at hc
      have np : p.arr ≠ v.arr := fun e => by rw [apP e.symm] at hc; simp at hc
      have av : SetMem.array (m.set v.arr ((m.array v).set v.len u)) ⟨v.arr, v.len + 1⟩ = (m.array v).set v.len u :=
        array_set_eq m _ ⟨v.arr, v.len + 1⟩ ltv
      exact {
        ltv := by simpa using ltv, lts := by simpa using lts, ltp := by simpa using ltp
        lenv := by rw [av, List.length_set]; exact hc
        lens := by rw [array_set_ne m _ _ s ns]; exact lens
        lenp := by rw [array_set_ne m _ _ p np]; exact lenp
        vps := by
          show SetMem.view _ _ = _
          unfold SetMem.view
          rw [av, take_set_end _ _ _ hc, ← hv]
          rfl
        sps := by rw [view_set_ne m _ _ s ns]; exact hs
        pps := by rw [view_set_ne m _ _ p np]; exact hp
        cap := by rw [array_set_ne m _ _ p np]; exact hcap
        apartS := fun e => absurd e.symm ns
        apartP := fun e => absurd e.symm np
        joint := joint
        shared := shared
        ahead := ahead }
    · rw [if_neg hc]
      exact {
        ltv := by simp
        lts := by simp; omega
        ltp := by simp; omega
        lenv := by rw [array_new]; simp [view_len lenv]
        lens := by rw [array_push m _ s lts]; exact lens
        lenp := by rw [array_push m _ p ltp]; exact lenp
        vps := by
          show SetMem.view _ _ = _
          unfold SetMem.view
          rw [array_new, ← hv]
          show List.take (v.len + 1) (m.view v ++ _) = _
          rw [List.take_append, view_len lenv, List.take_of_length_le (by rw [view_len lenv]; omega)]
          simp
        sps := by rw [view_push m _ s lts]; exact hs
        pps := by rw [view_push m _ p ltp]; exact hp
        cap := by rw [array_push m _ p ltp]; exact hcap
        apartS := fun e => by dsimp only at e; omega
        apartP := fun e => by dsimp only at e; omega
        joint := joint
        shared := shared
        ahead := ahead }
  rw [if_neg h32, if_neg h32]
  by_cases h33 : t = 33
  · rw [if_pos h33, if_pos h33]
    unfold SetMem.append
    by_cases hc : p.len < (m.array p).length
    · rw [if_pos hc]
      have nv : v.arr ≠ p.arr := fun e => by
        have := apP e
        have e2 : m.array v = m.array p := by unfold SetMem.array; rw [e]
        rw [← e2, this] at hc
        simp at hc
      have av : ∀ n, SetMem.array (m.set p.arr ((m.array p).set p.len u)) ⟨p.arr, n⟩ = (m.array p).set p.len u :=
        fun n => array_set_eq m _ ⟨p.arr, n⟩ ltp
      exact {
        ltv := by simpa using ltv, lts := by simpa using ltp, ltp := by simpa using ltp
        lenv := by rw [array_set_ne m _ _ v nv]; exact lenv
        lens := by rw [av, List.length_set]; exact hc
        lenp := by show p.len ≤ (SetMem.array _ ⟨p.arr, p.len⟩).length; rw [av, List.length_set]; exact lenp
        vps := by rw [view_set_ne m _ _ v nv]; exact hv
        sps := by
          show SetMem.view _ _ = r.ppsList ++ [u]
          unfold SetMem.view
          rw [av, take_set_end _ _ _ hc, ← hp]
          rfl
        pps := by
          show SetMem.view _ ⟨p.arr, p.len⟩ = _
          unfold SetMem.view
          rw [av, take_set_ge _ _ _ _ (Nat.le_refl _), ← hp]
          rfl
        cap := by show (SetMem.array _ ⟨p.arr, p.len⟩).length = _; rw [av, List.length_set]; exact hcap
        apartS := fun e => absurd e nv
        apartP := fun e => absurd e nv
        joint := fun _ => .inr ⟨rfl, by show decide _ = true; rw [hpl, ← hcap]; simpa using hc⟩
        shared := fun _ _ => rfl
        ahead := Nat.le_refl _ }
    · rw [if_neg hc]
      exact {
        ltv := by simp; omega
        lts := by simp
        ltp := by simp; omega
        lenv := by rw [array_push m _ v ltv]; exact lenv
        lens := by rw [array_new]; simp [view_len lenp]
        lenp := by rw [array_push m _ p ltp]; exact lenp
        vps := by rw [view_push m _ v ltv]; exact hv
        sps := by
          show SetMem.view _ _ = r.ppsList ++ [u]
          unfold SetMem.view
          rw [array_new, ← hp]
          show List.take (p.len + 1) (m.view p ++ _) = _
          rw [List.take_append, view_len lenp, List.take_of_length_le (by rw [view_len lenp]; omega)]
          simp
        pps := by rw [view_push m _ p ltp]; exact hp
        cap := by rw [array_push m _ p ltp]; exact hcap
        apartS := fun e => by dsimp only at e; omega
        apartP := fun e => by rw [array_push m _ v ltv]; exact apP e
        joint := fun e => by dsimp only at e; omega
        shared := fun e => by
          have e : decide (r.ppsList.length < r.ppsCap) = true := e
          rw [hpl, ← hcap] at e
          exact absurd (of_decide_eq_true e) hc
        ahead := Nat.le_refl _ }
  rw [if_neg h33, if_neg h33]
  by_cases h34 : t = 34
  · rw [if_pos h34, if_pos h34]
    unfold SetMem.append
    by_cases hc : p.len < (m.array p).length
    · rw [if_pos hc, if_pos (by rw [hpl, ← hcap]; exact hc)]
      have nv : v.arr ≠ p.arr := fun e => by
        have := apP e
        have e2 : m.array v = m.array p := by unfold SetMem.array; rw [e]
        rw [← e2, this] at hc
        simp at hc
      have av : ∀ n, SetMem.array (m.set p.arr ((m.array p).set p.len u)) ⟨p.arr, n⟩ = (m.array p).set p.len u :=
        fun n => array_set_eq m _ ⟨p.arr, n⟩ ltp
      have as : s.arr = p.arr → SetMem.array (m.set p.arr ((m.array p).set p.len u)) s = (m.array p).set p.len u := by
        intro e
        have := av s.len
        rw [← e] at this ⊢
        exact this
      have ea : s.arr = p.arr → m.array s = m.array p := by intro e; unfold SetMem.array; rw [e]
      exact {
        ltv := by simpa using ltv, lts := by simpa using lts, ltp := by simpa using ltp
        lenv := by rw [array_set_ne m _ _ v nv]; exact lenv
        lens := by
          by_cases e : s.arr = p.arr
          · rw [as e, List.length_set, ← ea e]; exact lens
          · rw [array_set_ne m _ _ s e]; exact lens
        lenp := by rw [av, List.length_set]; exact hc
        vps := by rw [view_set_ne m _ _ v nv]; exact hv
        sps := by
          show SetMem.view _ s = if r.shared = true ∧ r.spsList.length = r.ppsList.length + 1 then r.spsList.set r.ppsList.length u else r.spsList
          rw [hsl, hpl]
          by_cases e : s.arr = p.arr
          · rcases joint e with h1 | ⟨h1, h2⟩
            · rw [if_neg fun x => by omega, ← hs]
              unfold SetMem.view
              rw [as e, ea e, take_set_ge _ _ _ _ h1]
            · rw [if_pos ⟨h2, h1⟩, ← hs]
              unfold SetMem.view
              rw [as e, ea e, List.take_set]
          · rw [view_set_ne m _ _ s e, if_neg fun x => e (shared x.1 x.2)]
            exact hs
        pps := by
          show SetMem.view _ _ = r.ppsList ++ [u]
          unfold SetMem.view
          rw [av, take_set_end _ _ _ hc, ← hp]
          rfl
        cap := by rw [av, List.length_set]; exact hcap
        apartS := fun e => by rw [array_set_ne m _ _ v nv]; exact apS e
        apartP := fun e => absurd e nv
        joint := fun e => .inl (by
          show s.len ≤ p.len + 1
          rcases joint e with h1 | ⟨h1, _⟩ <;> omega)
        shared := fun e1 e2 => by
          have e2 : s.len = p.len + 1 + 1 := e2
          omega
        ahead := Nat.le_succ_of_le ahead }
    · rw [if_neg hc, if_neg (by rw [hpl, ← hcap]; exact hc)]
      exact {
        ltv := by simp; omega
        lts := by simp; omega
        ltp := by simp
        lenv := by rw [array_push m _ v ltv]; exact lenv
        lens := by rw [array_push m _ s lts]; exact lens
        lenp := by rw [array_new]; simp [view_len lenp]
        vps := by rw [view_push m _ v ltv]; exact hv
        sps := by rw [view_push m _ s lts]; exact hs
        pps := by
          show SetMem.view _ _ = r.ppsList ++ [u]
          unfold SetMem.view
          rw [array_new, ← hp]
          show List.take (p.len + 1) (m.view p ++ _) = _
          rw [List.take_append, view_len lenp, List.take_of_length_le (by rw [view_len lenp]; omega)]
          simp
        cap := by
          rw [array_new]
          show _ = max (r.ppsList.length + 1) (grow (r.ppsList.length + 1))
          rw [hpl]
          simp [view_len lenp]
          omega
        apartS := fun e => by rw [array_push m _ v ltv]; exact apS e
        apartP := fun e => by dsimp only at e; omega
        joint := fun e => by dsimp only at e; omega
        shared := fun e => by cases e
        ahead := Nat.le_succ_of_le ahead }
  · rw [if_neg h34, if_neg h34]
    exact ⟨ltv, lts, ltp, lenv, lens, lenp, hv, hs, hp, hcap, apS, apP, joint, shared, ahead⟩

end Avf
