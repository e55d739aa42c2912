import Verif.Lemmas.DemuxerOps
import Mathlib.Data.List.Induction
/-! # Lemmas: what the queues of a demuxer hold -/
namespace Avf
open Go

/-! ## `timed` and `ofTrack` -/

theorem timed_concat (ps : List AVPacket) (x p : AVPacket) :
    timed (ps ++ [x] ++ [p]) = timed (ps ++ [x]) ++ [{ x with duration := wrap64 (p.dts - x.dts) }] := by
  match ps with
  | [] => rfl
  | [y] => rfl
  | y :: z :: rest =>
    have := timed_concat (z :: rest) x p
    simp only [List.cons_append, timed] at this ⊢
    rw [this]

theorem timed_length (ps : List AVPacket) : (timed ps).length = ps.length - 1 := by
  match ps with
  | [] => rfl
  | [y] => rfl
  | y :: z :: rest => simp [timed, timed_length (z :: rest)]

theorem mem_timed {ps : List AVPacket} {x : AVPacket} (h : x ∈ timed ps) : ∃ y ∈ ps, ∃ d, x = { y with duration := d } := by
  match ps with
  | [] => cases h
  | [y] => cases h
  | y :: z :: rest =>
    rw [timed, List.mem_cons] at h
    rcases h with rfl | h
    · exact ⟨y, by simp, _, rfl⟩
    · obtain ⟨w, hw, d, e⟩ := mem_timed h
      exact ⟨w, List.mem_cons_of_mem _ hw, d, e⟩

theorem timed_prefix (ps qs : List AVPacket) : ∃ r, timed (ps ++ qs) = timed ps ++ r := by
  match ps with
  | [] => exact ⟨timed qs, rfl⟩
  | [y] => exact ⟨timed (y :: qs), rfl⟩
  | y :: z :: rest =>
    obtain ⟨r, hr⟩ := timed_prefix (z :: rest) qs
    refine ⟨r, ?_⟩
    simp only [List.cons_append, timed] at hr ⊢
    rw [hr]

theorem timed_map_bare (ps : List AVPacket) : (timed ps).map bare = (ps.take (ps.length - 1)).map bare := by
  match ps with
  | [] => rfl
  | [y] => rfl
  | y :: z :: rest =>
    have := timed_map_bare (z :: rest)
    simp only [timed, List.length_cons, Nat.add_sub_cancel, List.map_cons, List.take_succ_cons] at this ⊢
    rw [this]; rfl

theorem ofTrack_append (i : Nat) (a b : List AVPacket) : ofTrack i (a ++ b) = ofTrack i a ++ ofTrack i b := List.filter_append ..

theorem ofTrack_single (i : Nat) (p : AVPacket) : ofTrack i [p] = if p.index = i then [p] else [] := by
  unfold ofTrack
  by_cases h : p.index = i <;> simp [h]

theorem mem_ofTrack {i : Nat} {ps : List AVPacket} {p : AVPacket} : p ∈ ofTrack i ps ↔ p ∈ ps ∧ p.index = i := by
  unfold ofTrack; simp

theorem ofTrack_nil_iff {i : Nat} {ps : List AVPacket} : ofTrack i ps = [] ↔ ∀ p ∈ ps, p.index ≠ (i : Int) := by
  unfold ofTrack; simp

/-- What is queued when the packets `ps` of a track have come. -/
def queueOf (ps : List AVPacket) : List AVPacket := timed ps ++ ps.getLast?.toList

theorem queueOf_concat (ps : List AVPacket) (x : AVPacket) : queueOf (ps ++ [x]) = timed (ps ++ [x]) ++ [x] := by
  unfold queueOf; simp

theorem queueOf_length (ps : List AVPacket) : (queueOf ps).length = ps.length := by
  rcases List.eq_nil_or_concat ps with rfl | ⟨q, x, rfl⟩
  · rfl
  · rw [List.concat_eq_append, queueOf_concat]; simp [timed_length]

theorem stamp_queueOf (ps : List AVPacket) (p : AVPacket) : Demuxer.stamp (queueOf ps) p = queueOf (ps ++ [p]) := by
  rcases List.eq_nil_or_concat ps with rfl | ⟨q, x, rfl⟩
  · rfl
  · rw [List.concat_eq_append, queueOf_concat, Demuxer.stamp_concat, queueOf_concat, timed_concat]; simp

theorem queueOf_take (ps : List AVPacket) : (queueOf ps).take ((queueOf ps).length - 1) = timed ps := by
  rw [queueOf_length, ← timed_length]
  unfold queueOf
  rw [List.take_left]

theorem queueOf_drop (ps : List AVPacket) : (queueOf ps).drop ((queueOf ps).length - 1) = ps.getLast?.toList := by
  rw [queueOf_length, ← timed_length]
  unfold queueOf
  rw [List.drop_left]

theorem mem_queueOf {ps : List AVPacket} {x : AVPacket} (h : x ∈ queueOf ps) : ∃ y ∈ ps, x.index = y.index := by
  rcases List.mem_append.1 h with h | h
  · obtain ⟨y, hy, d, rfl⟩ := mem_timed h
    exact ⟨y, hy, rfl⟩
  · refine ⟨x, ?_, rfl⟩
    rw [Option.mem_toList] at h
    exact List.mem_of_getLast? h

theorem FirstsInOrder.prefix {a b : List AVPacket} (h : FirstsInOrder (a ++ b)) : FirstsInOrder a := by
  intro l p r e j hj
  exact h l p (r ++ b) (by rw [e]; simp) j hj

/-- Queues whose packets all have the index of their queue. -/
theorem ofTrack_flatten {qs : List (List AVPacket)} (h : ∀ (j : Nat) q, qs[j]? = some q → ∀ p ∈ q, p.index = j) (i : Nat) :
    ofTrack i qs.flatten = qs.getD i [] := by
  induction qs using List.reverseRecOn with
  | nil => rfl
  | append_singleton qs q ih =>
    have h1 : ∀ (j : Nat) q', qs[j]? = some q' → ∀ p ∈ q', p.index = j := by
      intro j q' hj
      refine h j q' ?_
      rw [List.getElem?_append_left (List.getElem?_eq_some_iff.1 hj).1]; exact hj
    have h2 : ∀ p ∈ q, p.index = (qs.length : Int) := h qs.length q (by simp)
    rw [List.flatten_append, ofTrack_append, ih h1]
    simp only [List.flatten_cons, List.flatten_nil, List.append_nil, List.getD_eq_getElem?_getD]
    rcases Nat.lt_trichotomy i qs.length with hi | hi | hi
    · rw [List.getElem?_append_left hi, ofTrack_nil_iff.2, List.append_nil]
      intro p hp; rw [h2 p hp]; intro e; have : qs.length = i := by exact_mod_cast e
      omega
    · subst hi
      rw [List.getElem?_eq_none (Nat.le_refl _)]
      simp only [Option.getD_none, List.nil_append, List.getElem?_concat_length, Option.getD_some]
      unfold ofTrack
      rw [List.filter_eq_self]; intro p hp; simp [h2 p hp]
    · rw [List.getElem?_eq_none (by omega), List.getElem?_eq_none (by simp; omega), ofTrack_nil_iff.2]
      · rfl
      · intro p hp; rw [h2 p hp]; intro e; have : qs.length = i := by exact_mod_cast e
        omega

namespace Demuxer

theorem push_getD {qs : List (List AVPacket)} {p : AVPacket} (h0 : 0 ≤ p.index) (h : p.index ≤ qs.length) (i : Nat) :
    (push qs p).getD i [] = if p.index = i then stamp (qs.getD i []) p else qs.getD i [] := by
  obtain ⟨n, hn⟩ := Int.eq_ofNat_of_zero_le h0
  rw [hn] at h
  have h : n ≤ qs.length := by exact_mod_cast h
  have hiff : (p.index = (i : Int)) ↔ n = i := by rw [hn]; exact Int.natCast_inj
  unfold push
  by_cases hl : p.index < qs.length
  · rw [if_pos hl, hn, Int.toNat_natCast, List.getD_eq_getElem?_getD, List.getD_eq_getElem?_getD, List.getElem?_modify]
    rw [hn] at hl
    have hl : n < qs.length := by exact_mod_cast hl
    by_cases hi : n = i
    · rw [if_pos (by exact_mod_cast hi), ← hi, List.getElem?_eq_getElem hl]; simp
    · rw [if_neg (by exact_mod_cast hi)]; simp [hi]
  · rw [if_neg hl]
    have hne : n = qs.length := by rw [hn] at hl; omega
    simp only [List.getD_eq_getElem?_getD]
    by_cases hi : n = i
    · rw [if_pos (hiff.2 hi), ← hi, hne, List.getElem?_eq_none (Nat.le_refl _)]; simp [stamp]
    · rw [if_neg (fun e => hi (hiff.1 e)), List.getElem?_append]
      split
      · rfl
      · rw [List.getElem?_eq_none (show [[p]].length ≤ i - qs.length by simp; omega), List.getElem?_eq_none (by omega)]

theorem push_length (qs : List (List AVPacket)) (p : AVPacket) :
    (push qs p).length = if p.index < qs.length then qs.length else qs.length + 1 := by
  unfold push; split <;> simp

/-! ## Nothing gets lost: all histories -/

theorem stamp_bare (q : List AVPacket) (p : AVPacket) : (stamp q p).map bare = q.map bare ++ [bare p] := by
  rcases List.eq_nil_or_concat q with rfl | ⟨q, x, rfl⟩
  · rfl
  · rw [List.concat_eq_append, stamp_concat]; simp [bare]

theorem push_bare (qs : List (List AVPacket)) (p : AVPacket) (h0 : 0 ≤ p.index) :
    ((push qs p).flatten.map bare).Perm (qs.flatten.map bare ++ [bare p]) := by
  unfold push
  split
  · have hl : p.index.toNat < qs.length := by omega
    generalize p.index.toNat = n at hl
    rename_i hlt
    clear hlt
    induction qs generalizing n with
    | nil => simp at hl
    | cons q qs ih =>
      cases n with
      | zero =>
        rw [List.modify_zero_cons, List.flatten_cons, List.flatten_cons, List.map_append, List.map_append, stamp_bare]
        rw [List.append_assoc, List.append_assoc]
        exact List.Perm.append_left _ List.perm_append_comm
      | succ n =>
        rw [List.modify_succ_cons, List.flatten_cons, List.flatten_cons, List.map_append, List.map_append, List.append_assoc]
        exact List.Perm.append_left _ (ih n (by simpa using hl))
  · simp

/-- Everything taken is delivered or queued. -/
def Conserved (s : Demuxer) : Prop :=
  ((delivered s.calls ++ s.packets.flatten).map bare).Perm ((taken s.calls).map bare)

theorem taken_reject (c : List Call) (b : Int) : taken (c ++ [.discardBack b]) = taken c := by
  rw [taken_append]; show _ ++ [] = _; simp

theorem delivered_reject (c : List Call) (b : Int) : delivered (c ++ [.discardBack b]) = delivered c := by
  rw [delivered_append]; show _ ++ [] = _; simp

theorem taken_accept (c : List Call) (p : AVPacket) : taken (c ++ [.accepted p]) = taken c ++ [p] := taken_append ..

theorem delivered_accept (c : List Call) (p : AVPacket) : delivered (c ++ [.accepted p]) = delivered c := by
  rw [delivered_append]; show _ ++ [] = _; simp

theorem live_delivered {s : Demuxer} {p x : AVPacket} (h : s.packets[slot s.packets p]? = some [x]) :
    delivered (s.live p).calls = delivered s.calls ++ [{ x with duration := wrap64 (p.dts - x.dts) }] := by
  rw [live_calls h, delivered_append, delivered_append, delivered_fwd]; rfl

theorem live_delivered' {s : Demuxer} {p : AVPacket} (h : ∀ x, s.packets[slot s.packets p]? ≠ some [x]) :
    delivered (s.live p).calls = delivered s.calls := by
  rw [live_calls' h, delivered_accept]

theorem live_packets {s : Demuxer} {p x : AVPacket} (h : s.packets[slot s.packets p]? = some [x]) :
    (s.live p).packets = s.packets.set (slot s.packets p) [p] := by
  unfold Demuxer.live; rw [h]

theorem live_packets' {s : Demuxer} {p : AVPacket} (h : ∀ x, s.packets[slot s.packets p]? ≠ some [x]) :
    (s.live p).packets = push s.packets p := by
  unfold Demuxer.live
  split
  · rename_i x hx; exact absurd hx (h x)
  · rfl

theorem set_flatten_perm {qs : List (List AVPacket)} {n : Nat} {q r : List AVPacket} (h : qs[n]? = some q) :
    ∃ rest, qs.flatten.Perm (q ++ rest) ∧ (qs.set n r).flatten.Perm (r ++ rest) := by
  induction qs generalizing n with
  | nil => cases h
  | cons a qs ih =>
    cases n with
    | zero =>
      rw [List.getElem?_cons_zero, Option.some.injEq] at h
      subst h
      exact ⟨qs.flatten, .refl _, .refl _⟩
    | succ n =>
      obtain ⟨rest, h1, h2⟩ := ih (n := n) (by simpa using h)
      refine ⟨a ++ rest, ?_, ?_⟩
      · rw [List.flatten_cons]
        refine (List.Perm.append_left _ h1).trans ?_
        rw [← List.append_assoc, ← List.append_assoc]
        exact List.Perm.append_right _ List.perm_append_comm
      · rw [List.set_cons_succ, List.flatten_cons]
        refine (List.Perm.append_left _ h2).trans ?_
        rw [← List.append_assoc, ← List.append_assoc]
        exact List.Perm.append_right _ List.perm_append_comm

theorem split_flatten_perm (qs : List (List AVPacket)) :
    ((qs.flatMap fun q => q.take (q.length - 1)) ++ (qs.map fun q => q.drop (q.length - 1)).flatten).Perm qs.flatten := by
  induction qs with
  | nil => exact .refl _
  | cons q qs ih =>
    rw [List.flatMap_cons, List.map_cons, List.flatten_cons, List.flatten_cons]
    have : (q.take (q.length - 1) ++ q.drop (q.length - 1) ++
        ((qs.flatMap fun q => q.take (q.length - 1)) ++ (qs.map fun q => q.drop (q.length - 1)).flatten)).Perm (q ++ qs.flatten) := by
      rw [List.take_append_drop]; exact List.Perm.append_left _ ih
    refine List.Perm.trans ?_ this
    simp only [List.append_assoc]
    refine List.Perm.append_left _ ?_
    rw [← List.append_assoc, ← List.append_assoc]
    exact List.Perm.append_right _ List.perm_append_comm

theorem Conserved.micro {s s' : Demuxer} (hi : Inv s) (h : Conserved s) (m : Micro s s') : Conserved s' := by
  unfold Conserved at *
  cases m with
  | quiet os pd => exact h
  | register t b hc ht => exact h
  | reject b =>
    show ((delivered (s.calls ++ _) ++ s.packets.flatten).map bare).Perm ((taken (s.calls ++ _)).map bare)
    rw [delivered_reject, taken_reject]; exact h
  | probing p hc hk =>
    dsimp only
    rw [delivered_accept, taken_accept, List.map_append, List.map_append]
    rw [List.map_append] at h
    refine (List.Perm.append_left _ (push_bare s.packets p (hi.range hk).1)).trans ?_
    rw [← List.append_assoc]
    exact List.Perm.append_right _ h
  | live p hc hk =>
    rw [live_taken]
    by_cases hx : ∃ x, s.packets[slot s.packets p]? = some [x]
    · obtain ⟨x, hx⟩ := hx
      rw [live_delivered hx, live_packets hx]
      obtain ⟨rest, h1, h2⟩ := set_flatten_perm (r := [p]) hx
      have h3 := (List.Perm.append_left (delivered s.calls) h1).map bare
      have h4 := h3.symm.trans h
      rw [List.map_append, List.map_append, List.map_append] at *
      refine (List.Perm.append_left _ (h2.map bare)).trans ?_
      rw [List.map_append]
      refine List.Perm.trans ?_ (List.Perm.append_right _ h4)
      have hb : bare { x with duration := wrap64 (p.dts - x.dts) } = bare x := rfl
      simp only [List.map_cons, List.map_nil, List.append_assoc, List.cons_append, List.nil_append, hb]
      refine List.Perm.append_left _ (List.Perm.cons _ ?_)
      exact (List.perm_append_comm (l₁ := [bare p]))
    · have hx : ∀ x, s.packets[slot s.packets p]? ≠ some [x] := by simpa using hx
      rw [live_delivered' hx, live_packets' hx, List.map_append, List.map_append]
      rw [List.map_append] at h
      refine (List.Perm.append_left _ (push_bare s.packets p (hi.range hk).1)).trans ?_
      rw [← List.append_assoc]
      exact List.Perm.append_right _ h
  | done ts rs hc ht hts hp hs =>
    rw [done_delivered, done_taken]
    refine List.Perm.trans ?_ h
    refine List.Perm.map _ ?_
    rw [List.append_assoc]
    exact List.Perm.append_left _ ((List.Perm.append_right _ hp).trans (split_flatten_perm s.packets))
  | notFound hc ht =>
    dsimp only
    rw [delivered_append, taken_append]
    show ((delivered s.calls ++ [] ++ _).map _).Perm ((taken s.calls ++ []).map _)
    rw [List.append_nil, List.append_nil]; exact h

theorem Reached.conserved {name : String} {a : Bool} {l : List (Oracle × DemuxOp)} {s : Demuxer} (h : Reached name a l s) : Conserved s :=
  Reached.induct h (.refl _) fun _ _ hi hs m => hs.micro hi m

/-! ## Histories in which first packets come in index order -/

theorem known_append {s : Demuxer} {p : AVPacket} (h : Known s p) {s' : Demuxer} {e : List (Int × Int)} (hb : s'.bufferOf = s.bufferOf ++ e) :
    Known s' p := by
  unfold Known at *
  rw [hb, lookup_append, h]; rfl

/-- Packets taken are of known tracks. -/
def TakenKnown (s : Demuxer) : Prop := ∀ p ∈ taken s.calls, Known s p

theorem TakenKnown.micro {s s' : Demuxer} (h : TakenKnown s) (m : Micro s s') : TakenKnown s' := by
  cases m with
  | quiet os pd => exact h
  | register t b hc ht => exact fun p hp => known_append (h p hp) rfl
  | reject b =>
    intro p hp
    have hp : p ∈ taken (s.calls ++ [.discardBack b]) := hp
    rw [taken_reject] at hp; exact h p hp
  | probing p hc hk =>
    intro x hx
    have hx : x ∈ taken (s.calls ++ [.accepted p]) := hx
    rw [taken_accept, List.mem_append, List.mem_singleton] at hx
    rcases hx with hx | rfl
    · exact h x hx
    · exact hk
  | live p hc hk =>
    intro x hx
    rw [live_taken, List.mem_append, List.mem_singleton] at hx
    unfold Known
    rw [(live_tracks s p).2.1]
    rcases hx with hx | rfl
    · exact h x hx
    · exact hk
  | done ts rs hc ht hts hp hs => intro x hx; rw [done_taken] at hx; exact h x hx
  | notFound hc ht =>
    intro x hx
    have hx : x ∈ taken (s.calls ++ [.trackNotFound]) := hx
    have e : taken (s.calls ++ [.trackNotFound]) = taken s.calls := by rw [taken_append]; show _ ++ [] = _; simp
    rw [e] at hx; exact h x hx

theorem beforeComplete_in {c : List Call} (h : .trackComplete ∈ c) (d : List Call) : beforeComplete (c ++ d) = beforeComplete c := by
  unfold beforeComplete
  induction c with
  | nil => cases h
  | cons x c ih =>
    rw [List.cons_append, List.takeWhile_cons, List.takeWhile_cons]
    cases x with
    | trackComplete => rfl
    | _ =>
      have h : Call.trackComplete ∈ c := by simpa using h
      simp only [if_true]
      rw [ih h]

theorem beforeComplete_notin {c : List Call} (h : .trackComplete ∉ c) (d : List Call) :
    beforeComplete (c ++ d) = c ++ beforeComplete d := by
  unfold beforeComplete
  induction c with
  | nil => rfl
  | cons x c ih =>
    rw [List.cons_append, List.takeWhile_cons]
    have h2 : Call.trackComplete ∉ c := fun hm => h (List.mem_cons_of_mem _ hm)
    cases x with
    | trackComplete => exact absurd (List.mem_cons_self ..) h
    | _ => simp only [if_true]; rw [ih h2]; rfl

theorem taken_beforeComplete_append {c d : List Call} (h : taken d = []) :
    taken (beforeComplete (c ++ d)) = taken (beforeComplete c) := by
  by_cases hm : Call.trackComplete ∈ c
  · rw [beforeComplete_in hm]
  · have hc := beforeComplete_notin hm []
    rw [List.append_nil] at hc
    rw [hc, beforeComplete_notin hm, taken_append, taken_append]
    congr 1
    have h1 : taken (beforeComplete d) = [] := by
      have : (beforeComplete d).Sublist d := List.takeWhile_sublist _
      have := List.Sublist.filterMap (fun | .accepted p => some p | _ => none) this
      exact List.eq_nil_of_sublist_nil (h ▸ this)
    rw [h1]; rfl

/-- What the queues and the deliveries are, in terms of the packets taken. -/
structure QInv (s : Demuxer) : Prop where
  len : ∀ i : Nat, i < s.packets.length ↔ ∃ p ∈ taken s.calls, p.index = (i : Int)
  probing : s.completed = false → delivered s.calls = [] ∧ ∀ i, s.packets.getD i [] = queueOf (ofTrack i (taken s.calls))
  done : s.completed = true → taken (beforeComplete s.calls) <+: taken s.calls ∧
    ∃ early late, delivered s.calls = early ++ late ∧ (early.Pairwise fun a b => ¬ b.dts < a.dts) ∧
      (∀ i, (ofTrack i early).Perm (timed (ofTrack i (taken (beforeComplete s.calls))))) ∧
      (∀ i, ofTrack i late = (timed (ofTrack i (taken s.calls))).drop (timed (ofTrack i (taken (beforeComplete s.calls)))).length) ∧
      ∀ i, s.packets.getD i [] = (ofTrack i (taken s.calls)).getLast?.toList

theorem QInv.congr {s s' : Demuxer} (h : QInv s) (h1 : s'.packets = s.packets) (h2 : s'.completed = s.completed)
    (h3 : taken s'.calls = taken s.calls) (h4 : delivered s'.calls = delivered s.calls)
    (h5 : taken (beforeComplete s'.calls) = taken (beforeComplete s.calls)) : QInv s' := by
  obtain ⟨a, b, c⟩ := h
  refine ⟨?_, ?_, ?_⟩
  · rw [h1, h3]; exact a
  · rw [h1, h2, h3, h4]; exact b
  · rw [h1, h2, h3, h4, h5]; exact c

/-- Where the next packet goes. -/
theorem QInv.next {s : Demuxer} (h : QInv s) {p : AVPacket} (h0 : 0 ≤ p.index) (hf : FirstsInOrder (taken s.calls ++ [p])) :
    p.index ≤ s.packets.length ∧ slot s.packets p = p.index.toNat := by
  have h1 : p.index ≤ s.packets.length := by
    by_contra hlt
    obtain ⟨q, hq, e⟩ := hf (taken s.calls) p [] rfl s.packets.length (by omega)
    exact absurd ((h.len _).2 ⟨q, hq, e⟩) (Nat.lt_irrefl _)
  refine ⟨h1, ?_⟩
  unfold slot
  split
  · rfl
  · omega

theorem QInv.len_push {s : Demuxer} (h : QInv s) {p : AVPacket} (h0 : 0 ≤ p.index) (hle : p.index ≤ s.packets.length) (i : Nat) :
    i < (push s.packets p).length ↔ ∃ q ∈ taken s.calls ++ [p], q.index = (i : Int) := by
  rw [push_length]
  have hl := h.len i
  simp only [List.mem_append, List.mem_singleton]
  constructor
  · intro hi
    split at hi
    · obtain ⟨q, hq, e⟩ := hl.1 hi
      exact ⟨q, Or.inl hq, e⟩
    · by_cases hi' : i < s.packets.length
      · obtain ⟨q, hq, e⟩ := hl.1 hi'
        exact ⟨q, Or.inl hq, e⟩
      · exact ⟨p, Or.inr rfl, by omega⟩
  · rintro ⟨q, hq | rfl, e⟩
    · have := hl.2 ⟨q, hq, e⟩
      split <;> omega
    · split <;> omega

theorem getLast_toList_single {l : List AVPacket} {x : AVPacket} (h : l.getLast?.toList = [x]) : ∃ q, l = q ++ [x] := by
  rcases List.eq_nil_or_concat l with rfl | ⟨q, y, rfl⟩
  · cases h
  · rw [List.concat_eq_append] at h ⊢
    simp at h
    exact ⟨q, by rw [h]⟩

theorem QInv.micro {s s' : Demuxer} (hi : Inv s) (hse : Seen s) (h : FirstsInOrder (taken s.calls) → QInv s) (m : Micro s s')
    (hf : FirstsInOrder (taken s'.calls)) : QInv s' := by
  cases m with
  | quiet os pd => exact (h hf).congr rfl rfl rfl rfl rfl
  | register t b hc ht => exact (h hf).congr rfl rfl rfl rfl rfl
  | reject b =>
    have e1 : taken (s.calls ++ [.discardBack b]) = taken s.calls := taken_reject _ _
    have hf : FirstsInOrder (taken (s.calls ++ [.discardBack b])) := hf
    rw [e1] at hf
    exact (h hf).congr rfl rfl e1 (delivered_reject _ _) (taken_beforeComplete_append (d := [.discardBack b]) rfl)
  | probing p hc hk =>
    have hf : FirstsInOrder (taken (s.calls ++ [.accepted p])) := hf
    rw [taken_accept] at hf
    have hq := h hf.prefix
    obtain ⟨h0, _⟩ := hi.range hk
    obtain ⟨hle, hsl⟩ := hq.next h0 hf
    obtain ⟨hd, hqs⟩ := hq.probing hc
    refine ⟨?_, fun _ => ⟨?_, ?_⟩, fun hc' => ?_⟩
    · intro i
      dsimp only
      rw [taken_accept]
      exact hq.len_push h0 hle i
    · dsimp only; rw [delivered_accept]; exact hd
    · intro i
      dsimp only
      rw [taken_accept, push_getD h0 hle, hqs i, ofTrack_append, ofTrack_single, stamp_queueOf]
      split
      · rfl
      · rw [List.append_nil]
    · rw [show s.completed = true from hc'] at hc; cases hc
  | notFound hc ht =>
    have e : taken (s.calls ++ [.trackNotFound]) = taken s.calls := by rw [taken_append]; show _ ++ [] = _; simp
    have hf : FirstsInOrder (taken (s.calls ++ [.trackNotFound])) := hf
    rw [e] at hf
    have hq := h hf
    have hno : s.packets = [] := by
      rcases hp : s.packets with _ | ⟨q, r⟩
      · rfl
      · have : 0 < s.packets.length := by rw [hp]; simp
        have hl := hq.len 0
        obtain ⟨p, hp1, hp2⟩ := hl.1 this
        have h1 := (hq.probing hc).2 0
        have hm : p ∈ ofTrack 0 (taken s.calls) := mem_ofTrack.2 ⟨hp1, hp2⟩
        rcases List.eq_nil_or_concat (ofTrack 0 (taken s.calls)) with he | ⟨l, x, he⟩
        · rw [he] at hm; cases hm
        · rw [he, List.concat_eq_append, queueOf_concat, hp] at h1
          have hxq : x ∈ q := by
            have : q = timed (l ++ [x]) ++ [x] := by simpa using h1
            rw [this]; simp
          have := hi.range (hi.known q (by rw [hp]; simp) x hxq)
          rw [ht] at this; simp at this; omega
    have hTi : ∀ i, ofTrack i (taken s.calls) = [] := by
      intro i
      rw [ofTrack_nil_iff]
      intro p hp he
      have := (hq.len i).2 ⟨p, hp, he⟩
      rw [hno] at this; simp at this
    obtain ⟨hd, _⟩ := hq.probing hc
    have hnc : Call.trackComplete ∉ s.calls := by
      intro hm
      have : Call.trackComplete ∈ toHandler s.calls := List.mem_filter.2 ⟨hm, rfl⟩
      rw [hse.1 hc] at this; cases this
    have hb : taken (beforeComplete (s.calls ++ [.trackNotFound])) = taken s.calls := by
      rw [beforeComplete_notin hnc, taken_append]; show _ ++ [] = _; simp
    refine ⟨?_, fun hc' => (by cases hc'), fun _ => ?_⟩
    · intro i; dsimp only; rw [e]; exact hq.len i
    · dsimp only
      rw [hb, e, delivered_append, hd]
      refine ⟨List.prefix_refl _, [], [], rfl, .nil, ?_, ?_, ?_⟩
      · intro i; rw [hTi i]; exact .refl _
      · intro i; rw [hTi i]; rfl
      · intro i; rw [hTi i, hno]; rfl
  | done ts rs hc ht hts hp hs =>
    rw [done_taken] at hf
    have hq := h hf
    obtain ⟨hd, hqs⟩ := hq.probing hc
    have hnc : Call.trackComplete ∉ s.calls := by
      intro hm
      have : Call.trackComplete ∈ toHandler s.calls := List.mem_filter.2 ⟨hm, rfl⟩
      rw [hse.1 hc] at this; cases this
    have hb : taken (beforeComplete (s.done ts rs).calls) = taken s.calls := by
      rw [done_calls, beforeComplete_notin hnc, beforeComplete_notin (by simp), taken_append, taken_append, taken_tracks]
      show _ ++ ([] ++ []) = _
      simp
    have hget : ∀ (j : Nat) q, s.packets[j]? = some q → q = queueOf (ofTrack j (taken s.calls)) := by
      intro j q hj
      rw [← hqs j, List.getD_eq_getElem?_getD, hj]; rfl
    refine ⟨?_, fun hc' => (by cases hc'), fun _ => ?_⟩
    · intro i
      rw [done_taken]
      show i < (s.packets.map _).length ↔ _
      rw [List.length_map]; exact hq.len i
    · rw [hb, done_taken, done_delivered, hd]
      refine ⟨List.prefix_refl _, rs, [], by simp, hs, ?_, ?_, ?_⟩
      · intro i
        have h1 : (ofTrack i rs).Perm (ofTrack i (s.packets.map fun q => q.take (q.length - 1)).flatten) := hp.filter _
        rw [ofTrack_flatten] at h1
        · refine h1.trans ?_
          have : (s.packets.map fun q => q.take (q.length - 1)).getD i [] = (s.packets.getD i []).take ((s.packets.getD i []).length - 1) := by
            rw [List.getD_eq_getElem?_getD, List.getD_eq_getElem?_getD, List.getElem?_map]
            cases s.packets[i]? <;> rfl
          rw [this, hqs i, queueOf_take]
        · intro j q hj x hx
          rw [List.getElem?_map] at hj
          cases e : s.packets[j]? with
          | none => rw [e] at hj; cases hj
          | some q0 =>
            rw [e] at hj
            cases hj
            have hx := List.mem_of_mem_take hx
            rw [hget j q0 e] at hx
            obtain ⟨y, hy, e⟩ := mem_queueOf hx
            rw [e]; exact (mem_ofTrack.1 hy).2
      · intro i; rw [List.drop_length]; rfl
      · intro i
        show (s.packets.map fun q => q.drop (q.length - 1)).getD i [] = _
        have : (s.packets.map fun q => q.drop (q.length - 1)).getD i [] = (s.packets.getD i []).drop ((s.packets.getD i []).length - 1) := by
          rw [List.getD_eq_getElem?_getD, List.getD_eq_getElem?_getD, List.getElem?_map]
          cases s.packets[i]? <;> rfl
        rw [this, hqs i, queueOf_drop]
  | live p hc hk =>
    rw [live_taken] at hf
    have hq := h hf.prefix
    obtain ⟨h0, hlt⟩ := hi.range hk
    obtain ⟨hle, hsl⟩ := hq.next h0 hf
    obtain ⟨hpre, early, late, hd, hsort, hearly, hlate, hqs⟩ := hq.done hc
    have hct : Call.trackComplete ∈ s.calls := by
      rcases hse.2 hc with ⟨e, _⟩ | ⟨_, ps, e, _⟩
      · rw [e] at hlt; simp at hlt; omega
      · have : Call.trackComplete ∈ toHandler s.calls := by rw [e]; simp
        exact (List.mem_filter.1 this).1
    have hb : beforeComplete (s.live p).calls = beforeComplete s.calls := by
      by_cases hx : ∃ x, s.packets[slot s.packets p]? = some [x]
      · obtain ⟨x, hx⟩ := hx
        rw [live_calls hx, beforeComplete_in hct]
      · rw [live_calls' (by simpa using hx), beforeComplete_in hct]
    obtain ⟨n, hn⟩ := Int.eq_ofNat_of_zero_le h0
    have hnat : p.index.toNat = n := by rw [hn]; rfl
    have hcomp : (s.live p).completed = true := (live_tracks s p).2.2.1.trans hc
    by_cases hx : ∃ x, s.packets[slot s.packets p]? = some [x]
    · obtain ⟨x, hx⟩ := hx
      have hlast : (ofTrack n (taken s.calls)).getLast?.toList = [x] := by
        rw [← hqs n, List.getD_eq_getElem?_getD, ← hnat, ← hsl, hx]; rfl
      obtain ⟨l, hl⟩ := getLast_toList_single hlast
      have hxi : x.index = (n : Int) := (mem_ofTrack.1 (hl ▸ by simp : x ∈ ofTrack n (taken s.calls))).2
      have hnlt : n < s.packets.length := by
        rw [hsl, hnat] at hx; exact (List.getElem?_eq_some_iff.1 hx).1
      refine ⟨?_, fun hc' => (by rw [hcomp] at hc'; cases hc'), fun _ => ?_⟩
      · intro i
        rw [live_packets hx, live_taken, List.length_set]
        simp only [List.mem_append, List.mem_singleton]
        rw [hq.len i]
        constructor
        · rintro ⟨q, hq', e⟩; exact ⟨q, Or.inl hq', e⟩
        · rintro ⟨q, hq' | rfl, e⟩
          · exact ⟨q, hq', e⟩
          · have : n = i := by rw [hn] at e; exact_mod_cast e
            subst this
            exact (hq.len n).1 hnlt
      · rw [hb, live_taken, live_delivered hx, live_packets hx, hd]
        refine ⟨hpre.trans (List.prefix_append ..), early, late ++ [{ x with duration := wrap64 (p.dts - x.dts) }], by simp, hsort, hearly, ?_, ?_⟩
        · intro i
          rw [ofTrack_append, ofTrack_append, ofTrack_single, ofTrack_single, hlate i]
          dsimp only
          rw [hxi, hn]
          by_cases hin : (n : Int) = (i : Int)
          · rw [if_pos hin, if_pos hin]
            have : n = i := by exact_mod_cast hin
            subst this
            obtain ⟨r, hr⟩ := hpre
            have hle : (timed (ofTrack n (taken (beforeComplete s.calls)))).length ≤ (timed (ofTrack n (taken s.calls))).length := by
              rw [timed_length, timed_length, ← hr, ofTrack_append, List.length_append]; omega
            have hstep : timed (ofTrack n (taken s.calls) ++ [p]) = timed (ofTrack n (taken s.calls)) ++ [{ x with duration := wrap64 (p.dts - x.dts) }] := by
              rw [hl, timed_concat]
            rw [hstep, List.drop_append_of_le_length hle, hxi]
          · rw [if_neg hin, if_neg hin, List.append_nil, List.append_nil]
        · intro i
          rw [hsl, hnat, List.getD_eq_getElem?_getD, ofTrack_append, ofTrack_single, hn]
          by_cases hin : n = i
          · subst hin
            rw [if_pos rfl, List.getElem?_set_self hnlt]; simp
          · rw [if_neg (by exact_mod_cast hin), List.getElem?_set_ne hin, ← List.getD_eq_getElem?_getD, hqs i, List.append_nil]
    · have hx : ∀ x, s.packets[slot s.packets p]? ≠ some [x] := by simpa using hx
      have hnone : ofTrack n (taken s.calls) = [] := by
        rcases List.eq_nil_or_concat (ofTrack n (taken s.calls)) with he | ⟨l, y, he⟩
        · exact he
        · exfalso
          have h1 := hqs n
          rw [he, List.concat_eq_append, List.getD_eq_getElem?_getD] at h1
          simp only [List.getLast?_concat, Option.toList_some] at h1
          have hm : y ∈ ofTrack n (taken s.calls) := by rw [he]; simp
          have hnlt := (hq.len n).2 ⟨y, (mem_ofTrack.1 hm).1, (mem_ofTrack.1 hm).2⟩
          rw [List.getElem?_eq_getElem hnlt, Option.getD_some] at h1
          exact hx y (by rw [hsl, hnat, List.getElem?_eq_getElem hnlt, h1])
      refine ⟨?_, fun hc' => (by rw [hcomp] at hc'; cases hc'), fun _ => ?_⟩
      · intro i
        rw [live_packets' hx, live_taken]
        exact hq.len_push h0 hle i
      · rw [hb, live_taken, live_delivered' hx, live_packets' hx, hd]
        refine ⟨hpre.trans (List.prefix_append ..), early, late, rfl, hsort, hearly, ?_, ?_⟩
        · intro i
          rw [hlate i, ofTrack_append, ofTrack_single, hn]
          by_cases hin : n = i
          · subst hin
            rw [if_pos rfl, hnone]; simp [timed]
          · rw [if_neg (by exact_mod_cast hin), List.append_nil]
        · intro i
          rw [push_getD h0 hle, hqs i, ofTrack_append, ofTrack_single, hn]
          by_cases hin : n = i
          · subst hin
            rw [if_pos rfl, if_pos rfl, hnone]; rfl
          · rw [if_neg (by exact_mod_cast hin), if_neg (by exact_mod_cast hin), List.append_nil]

theorem Reached.queues {name : String} {a : Bool} {l : List (Oracle × DemuxOp)} {s : Demuxer} (h : Reached name a l s)
    (hf : FirstsInOrder (taken s.calls)) : QInv s := by
  have := Reached.induct (P := fun s => Seen s ∧ (FirstsInOrder (taken s.calls) → QInv s)) h
    ⟨⟨fun _ => rfl, fun hc => by cases hc⟩, fun _ => ⟨by simp [Demuxer.new, taken], fun _ => ⟨rfl, fun i => by simp [Demuxer.new, taken, ofTrack, queueOf, timed]⟩, fun hc => by cases hc⟩⟩
    fun _ _ hi hs m => ⟨hs.1.micro hi m, QInv.micro hi hs.1 hs.2 m⟩
  exact this.2 hf

theorem Reached.takenKnown {name : String} {a : Bool} {l : List (Oracle × DemuxOp)} {s : Demuxer} (h : Reached name a l s) : TakenKnown s :=
  Reached.induct h (by intro p hp; cases hp) fun _ _ _ hs m => hs.micro m

/-! ## End of probing on a packet -/

theorem wrap64_add (a b : Int) : wrap64 (wrap64 a + b) = wrap64 (a + b) := by unfold wrap64; omega

theorem probed_eq (u : Int) (q : List AVPacket) : probed u q = bufferedMs u q := by
  have key : ∀ (q : List AVPacket) (a : Int), q.foldl (fun d p => wrap64 (d + p.getDuration u 1000)) (wrap64 a) =
      wrap64 (a + (q.map fun p => p.getDuration u 1000).sum) := by
    intro q
    induction q with
    | nil => intro a; simp
    | cons p q ih =>
      intro a
      rw [List.foldl_cons, wrap64_add, ih, List.map_cons, List.sum_cons, Int.add_assoc]
  have := key q 0
  rw [show wrap64 0 = 0 by decide, Int.zero_add] at this
  exact this

theorem complete_completed {o : Oracle} (ho : o.Valid) {s s' : Demuxer} (hi : Inv s) (hr : s.onProbeComplete o = ok s') :
    s'.completed = true := by
  by_cases hc : s.completed = true
  · rw [complete_again o hc] at hr; cases hr; exact hc
  · have hc : s.completed = false := by simpa using hc
    by_cases ht : s.tracks.tracks = []
    · rw [complete_none o hc ht] at hr; cases hr; rfl
    · rw [complete_eq o ho hi hc ht] at hr; cases hr; rfl

/-- The packet completes probing exactly when the queue it joins holds enough. -/
theorem process_completes {o : Oracle} {s s' : Demuxer} (ho : o.Valid) (hi : Inv s) {p : AVPacket} (hk : Known s p) (hc : s.completed = false)
    (hr : (s.call [.accepted p]).processBufferedPacket o p = ok s') :
    s'.completed = true ↔ ∃ q x, s.packets[slot s.packets p]? = some (q ++ [x]) ∧
      max s.probeDuration 200 ≤ bufferedMs o.undef (q ++ [{ x with duration := wrap64 (p.dts - x.dts) }]) := by
  have h0 := (hi.range hk).1
  have hm : Micro s { s with packets := push s.packets p, calls := s.calls ++ [.accepted p] } := .probing s p hc hk
  have hcall : (s.call [.accepted p]).completed = false := hc
  have hfirst : (s.packets[slot s.packets p]? = none ∨ s.packets[slot s.packets p]? = some []) → (s'.completed = true ↔ ∃ q x, s.packets[slot s.packets p]? = some (q ++ [x]) ∧
      max s.probeDuration 200 ≤ bufferedMs o.undef (q ++ [{ x with duration := wrap64 (p.dts - x.dts) }])) := by
    intro he
    have := process_first o (s := s.call [.accepted p]) h0 he
    rw [this] at hr
    cases hr
    constructor
    · intro h1; rw [show s.completed = true from h1] at hc; cases hc
    · rintro ⟨q, x, h1, _⟩
      rcases he with he | he
      · rw [he] at h1; cases h1
      · rw [he] at h1; simp at h1
  cases e : s.packets[slot s.packets p]? with
  | none => rw [← e]; exact hfirst (Or.inl e)
  | some q0 =>
    rcases List.eq_nil_or_concat q0 with rfl | ⟨q, x, rfl⟩
    · rw [← e]; exact hfirst (Or.inr e)
    · rw [List.concat_eq_append] at e ⊢
      have hnext := process_next o (s := s.call [.accepted p]) h0 e
      dsimp only at hnext
      rw [hnext, if_neg (by rw [hcall]; simp)] at hr
      have hpd : (s.call [.accepted p]).probeDuration = s.probeDuration := rfl
      rw [hpd, probed_eq] at hr
      have hiff : (∃ q' x', some (q ++ [x]) = some (q' ++ [x']) ∧
          max s.probeDuration 200 ≤ bufferedMs o.undef (q' ++ [{ x' with duration := wrap64 (p.dts - x'.dts) }])) ↔
          max s.probeDuration 200 ≤ bufferedMs o.undef (q ++ [{ x with duration := wrap64 (p.dts - x.dts) }]) := by
        constructor
        · rintro ⟨q', x', h1, h2⟩
          have := List.append_inj' (Option.some.inj h1) rfl
          obtain ⟨rfl, h3⟩ := this
          cases h3; exact h2
        · intro h2; exact ⟨q, x, rfl, h2⟩
      rw [hiff]
      by_cases hd : max s.probeDuration 200 ≤ bufferedMs o.undef (q ++ [{ x with duration := wrap64 (p.dts - x.dts) }])
      · rw [if_pos hd] at hr
        refine ⟨fun _ => hd, fun _ => ?_⟩
        exact complete_completed ho (s := { s with packets := push s.packets p, calls := s.calls ++ [.accepted p] }) (hi.micro hm) hr
      · rw [if_neg hd] at hr
        cases hr
        exact ⟨fun h1 => (by rw [show s.completed = true from h1] at hc; cases hc), fun h2 => absurd h2 hd⟩

/-- The queue that a packet joins, when first packets come in order. -/
theorem QInv.joins {s : Demuxer} (hq : QInv s) (hc : s.completed = false) {p : AVPacket} (h0 : 0 ≤ p.index)
    (hf : FirstsInOrder (taken s.calls ++ [p])) (Q : List AVPacket → Prop) (hQ : ¬ Q []) :
    (∃ q x, s.packets[slot s.packets p]? = some (q ++ [x]) ∧ Q (q ++ [{ x with duration := wrap64 (p.dts - x.dts) }])) ↔
      Q (timed (ofTrack p.index.toNat (taken s.calls ++ [p]))) := by
  obtain ⟨hle, hsl⟩ := hq.next h0 hf
  have hqs := (hq.probing hc).2 p.index.toNat
  have hof : ofTrack p.index.toNat (taken s.calls ++ [p]) = ofTrack p.index.toNat (taken s.calls) ++ [p] := by
    rw [ofTrack_append, ofTrack_single, if_pos (by omega)]
  rw [hof, hsl]
  rw [List.getD_eq_getElem?_getD] at hqs
  rcases List.eq_nil_or_concat (ofTrack p.index.toNat (taken s.calls)) with he | ⟨l, y, he⟩
  · rw [he] at hqs ⊢
    constructor
    · rintro ⟨q, x, h1, _⟩
      rw [h1] at hqs; simp [queueOf, timed] at hqs
    · intro h; exact absurd h hQ
  · rw [List.concat_eq_append] at he
    rw [he, queueOf_concat] at hqs
    have hlt : p.index.toNat < s.packets.length := by
      by_contra hge
      rw [List.getElem?_eq_none (by omega)] at hqs; simp at hqs
    rw [List.getElem?_eq_getElem hlt, Option.getD_some] at hqs
    rw [List.getElem?_eq_getElem hlt, hqs, he, timed_concat]
    constructor
    · rintro ⟨q, x, h1, h2⟩
      obtain ⟨rfl, h3⟩ := List.append_inj' (Option.some.inj h1) rfl
      cases h3; exact h2
    · intro h; exact ⟨_, y, rfl, h⟩

/-! ## Packet input keeps first packets in order -/

theorem FirstsInOrder.snoc {T : List AVPacket} {p : AVPacket} (h : FirstsInOrder T)
    (hp : ∀ j : Nat, (j : Int) < p.index → ∃ q ∈ T, q.index = (j : Int)) : FirstsInOrder (T ++ [p]) := by
  intro l x r e j hj
  rcases List.eq_nil_or_concat r with rfl | ⟨r', y, rfl⟩
  · obtain ⟨rfl, h3⟩ := List.append_inj' e rfl
    cases h3; exact hp j hj
  · rw [List.concat_eq_append, ← List.cons_append, ← List.append_assoc] at e
    obtain ⟨rfl, _⟩ := List.append_inj' e rfl
    exact h l x r' rfl j hj

theorem runDemux_firsts {s s' : Demuxer} (hi : Inv s) {l : List (Oracle × DemuxOp)} (hv : ∀ x ∈ l, x.1.Valid)
    (hp : ∀ x ∈ l, x.2.PacketOnly) (hr : runDemux s l = ok s')
    (hall : ∀ i < s.bufferOf.length, ∃ p ∈ taken s.calls, p.index = (i : Int)) (hf : FirstsInOrder (taken s.calls)) :
    FirstsInOrder (taken s'.calls) := by
  induction l generalizing s with
  | nil => cases hr; exact hf
  | cons x l ih =>
    obtain ⟨o, e⟩ := x
    obtain ⟨s1, h1, hr⟩ := bind_eq_ok.1 hr
    have ho := hv _ (List.mem_cons_self ..)
    have hpe := hp _ (List.mem_cons_self ..)
    have hlen : s.bufferOf.length = s.tracks.tracks.length := by
      have := congrArg List.length hi.keys; simpa using this
    refine ih (hi.micros (run_micros ho hi h1)) (fun y hy => hv y (List.mem_cons_of_mem _ hy)) (fun y hy => hp y (List.mem_cons_of_mem _ hy)) hr ?_ ?_
    · cases run_shape ho hi h1 with
      | plain cs h hpl hb hk => rw [h, taken_append, hpl.taken, List.append_nil, hb]; exact hall
      | track b h hn hb => exact absurd hpe hn
      | reject b d hk h hb hno => rw [h, taken_reject, hb]; exact hall
      | accept p cs d hk hd h hpl hb =>
        rw [h, show s.calls ++ .accepted p :: cs = s.calls ++ [.accepted p] ++ cs by simp, taken_append, hpl.taken, List.append_nil, taken_accept]
        intro i hi'
        rcases hb with ⟨hb, _⟩ | ⟨_, hidx, hb⟩
        · rw [hb] at hi'
          obtain ⟨q, hq, e⟩ := hall i hi'
          exact ⟨q, by simp [hq], e⟩
        · rw [hb, List.length_append, List.length_singleton] at hi'
          by_cases hlt : i < s.bufferOf.length
          · obtain ⟨q, hq, e⟩ := hall i hlt
            exact ⟨q, by simp [hq], e⟩
          · exact ⟨p, by simp, by rw [hidx]; omega⟩
    · cases run_shape ho hi h1 with
      | plain cs h hpl hb hk => rw [h, taken_append, hpl.taken, List.append_nil]; exact hf
      | track b h hn hb => exact absurd hpe hn
      | reject b d hk h hb hno => rw [h, taken_reject]; exact hf
      | accept p cs d hk hd h hpl hb =>
        rw [h, show s.calls ++ .accepted p :: cs = s.calls ++ [.accepted p] ++ cs by simp, taken_append, hpl.taken, List.append_nil, taken_accept]
        refine FirstsInOrder.snoc hf fun j hj => hall j ?_
        rcases hb with ⟨_, hm⟩ | ⟨_, hidx, _⟩
        · have := hi.keyRange hm; omega
        · omega

theorem Reached.firsts {name : String} {a : Bool} {l : List (Oracle × DemuxOp)} {s : Demuxer} (h : Reached name a l s)
    (hp : ∀ x ∈ l, x.2.PacketOnly) : FirstsInOrder (taken s.calls) :=
  runDemux_firsts (Inv.new name a) h.1 hp h.2 (by simp [Demuxer.new]) (by intro l p r e; simp [Demuxer.new, taken] at e)

end Demuxer
end Avf
