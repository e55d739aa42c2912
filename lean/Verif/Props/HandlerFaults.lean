import Verif.Lemmas.HandlerFaults
import Verif.Props.Handler
/-!
# C98: the file handler on a disk that fails (`handler.go`)
-/
namespace Avf
open Go

/-- **C98**: no error of the disk goes unnoticed. A handler that returns has done exactly what it does on a disk that never fails, and none of
its operations has failed. -/
theorem C98_noticed (fs : Faults) (path : List Char) (disk : Disk) (cs : List Call) (o : FaultyHandler)
    (h : (FaultyHandler.mk (FileHandler.new path disk) 0).handleAll fs cs = .ok o) :
    (FileHandler.new path disk).handleAll cs = ok o.toFileHandler ∧ ∀ j < o.ops, fs j = none :=
  ⟨(FaultyHandler.handleAll_ok h).1, fun j hj => (FaultyHandler.handleAll_ok h).2.2 j (Nat.zero_le _) hj⟩

/-- **C98**: every track and every packet takes an operation of the disk, so that `C98_noticed` is about them all. -/
theorem C98_operations (fs : Faults) (path : List Char) (disk : Disk) (ts : List AVStream) (ps : List AVPacket) (o : FaultyHandler)
    (h : (FaultyHandler.mk (FileHandler.new path disk) 0).handleAll fs (sessionCalls ts ps) = .ok o) : ts.length + ps.length ≤ o.ops := by
  have := FaultyHandler.handleAll_count h
  unfold sessionCalls at this
  rw [List.filter_append, List.filter_cons, List.filter_map, List.filter_map, List.filter_eq_self.2, List.filter_eq_self.2] at this
  · simp only [Nat.zero_add, List.length_append, List.length_map, Bool.false_eq_true, if_false] at this
    exact this
  · intro a _; rfl
  · intro a _; rfl

/-- **C98**: on a disk that does not fail, all is as in `Model/Handler.lean`. -/
theorem C98_no_fault (path : List Char) (disk : Disk) (cs : List Call) (o : FileHandler) :
    (∃ k, (FaultyHandler.mk (FileHandler.new path disk) 0).handleAll (fun _ => none) cs = .ok ⟨o, k⟩) ↔
      (FileHandler.new path disk).handleAll cs = ok o :=
  ⟨fun ⟨_, h⟩ => (FaultyHandler.handleAll_ok h).1, fun h => FaultyHandler.handleAll_none (o := ⟨_, 0⟩) h⟩

/-- **C98**: wherever the process dies, each file holds the packets of its track up to a point of time that is the same for all files; at most
one packet, the last, is cut off. Nothing else on the disk has changed. -/
theorem C98_left_behind (fs : Faults) (path : List Char) (disk : Disk) (ts : List AVStream) (ps : List AVPacket) (hs : Session ts ps) (d : Disk)
    (h : (FaultyHandler.mk (FileHandler.new path disk) 0).handleAll fs (sessionCalls ts ps) = .error d) : LeftBehind path disk ts ps d := by
  obtain ⟨as, c, bs, x, hsplit, h1, h2⟩ := FaultyHandler.handleAll_error h
  have h1 := (FaultyHandler.handleAll_ok h1).1
  dsimp only at h1
  have fin : ∀ (k : Nat) (us : List AVStream) (names : List (List Char)) (w : Nat → Bytes), k ≤ ps.length → us <+: ts →
      List.Forall₂ (fun t n => FileHandler.fileName path t = ok n) us names → FaultyHandler.DiskState disk names w d →
      (∀ i, us.length ≤ i → w i = []) →
      (∀ i, stored ts (ps.take k) i <+: w i ∧ w i <+: stored ts (ps.take (k + 1)) i) → LeftBehind path disk ts ps d := by
    intro k us names w hk hus hn hd hw hpre
    refine ⟨k, w, hk, hpre, ?_, ?_⟩
    · intro i t n ht hname
      dsimp only
      rcases FileHandler.names_at hn i with ⟨h0, _⟩ | ⟨u, m, hu, hm, hum⟩
      · right
        rw [List.getElem?_eq_none_iff] at h0
        refine ⟨hw i h0, hd.others n ?_⟩
        intro hmem
        obtain ⟨j, hj⟩ := List.mem_iff_getElem?.1 hmem
        rcases FileHandler.names_at hn j with ⟨_, h3⟩ | ⟨u, m, h3, h4, h5⟩
        · rw [hj] at h3; cases h3
        rw [hj] at h4; cases h4
        have hlt := (List.getElem?_eq_some_iff.1 h3).1
        have h3' : ts[j]? = some u := by
          obtain ⟨r, rfl⟩ := hus
          rw [List.getElem?_append_left hlt]; exact h3
        have := (fileName_inj hname h5).2.1
        rw [hs.index i t ht, hs.index j u h3'] at this
        omega
      · left
        have hlt := (List.getElem?_eq_some_iff.1 hu).1
        have hu' : ts[i]? = some u := by
          obtain ⟨r, rfl⟩ := hus
          rw [List.getElem?_append_left hlt]; exact hu
        rw [ht] at hu'; cases hu'
        rw [hname] at hum; cases hum
        exact hd.own i n hm
    · intro n hno
      refine hd.others n fun hmem => ?_
      obtain ⟨j, hj⟩ := List.mem_iff_getElem?.1 hmem
      rcases FileHandler.names_at hn j with ⟨_, h3⟩ | ⟨u, m, h3, h4, h5⟩
      · rw [hj] at h3; cases h3
      · rw [hj] at h4; cases h4
        exact hno u (hus.subset (List.mem_of_getElem? h3)) h5
  unfold sessionCalls at hsplit
  rcases List.append_eq_append_iff.1 hsplit with ⟨a, rfl, hb⟩ | ⟨a, ha, hb⟩
  · -- behind the tracks
    rw [FileHandler.handleAll_append] at h1
    obtain ⟨o1, e1, h1⟩ := bind_eq_ok.1 h1
    obtain ⟨names, hst⟩ := FileHandler.newTracks_state (FileHandler.new_state path disk) (by simpa using hs.index) e1
    rw [List.nil_append, ← FileHandler.total_nil ts] at hst
    cases a with
    | nil =>
      rw [List.nil_append, List.cons.injEq] at hb
      obtain ⟨rfl, _⟩ := hb
      cases h2
    | cons c' a =>
      rw [List.cons_append, List.cons.injEq] at hb
      obtain ⟨rfl, hb⟩ := hb
      obtain ⟨p1, p2, rfl, rfl, hb2⟩ := List.map_eq_append_iff.1 hb
      obtain ⟨p, p3, rfl, rfl, rfl⟩ := List.map_eq_cons_iff.1 hb2
      have hx := ((FileHandler.packets_state (done := []) (ps := p1) hst hs.index
        (fun q hq => hs.packets q (List.mem_append_left _ hq))).2 x.toFileHandler h1).2
      rw [List.nil_append] at hx
      obtain ⟨t, htm, hpt⟩ := hs.packets p (by simp)
      obtain ⟨i, ht⟩ := List.mem_iff_getElem?.1 htm
      have hpi : p.index = i := by rw [hpt]; exact hs.index i t ht
      obtain ⟨v, hv, hd⟩ := FaultyHandler.onPacket_left hx hs.index ht hpi h2
      have hk : (p1 ++ p :: p3).take p1.length = p1 := by simp
      have hk1 : (p1 ++ p :: p3).take (p1.length + 1) = p1 ++ [p] := by
        rw [List.take_append]; simp
      refine fin p1.length ts names _ (by simp) (List.prefix_refl _) hst.named hd ?_ ?_
      · intro j hj
        have hij : i ≠ j := by have := (List.getElem?_eq_some_iff.1 ht).1; omega
        rw [if_neg hij]
        unfold FileHandler.total
        rw [List.getElem?_eq_none_iff.2 hj]
      · intro j
        rw [hk, hk1, stored_total, stored_total, FileHandler.total_snoc ht hpi]
        by_cases hj : i = j
        · rw [if_pos hj]
          dsimp only
          rw [if_pos hj]
          exact ⟨List.prefix_append _ _, (List.prefix_append_right_inj _).2 hv⟩
        · rw [if_neg hj]
          dsimp only
          rw [if_neg hj]
          exact ⟨List.prefix_refl _, List.prefix_refl _⟩
  · -- among the tracks
    obtain ⟨u1, u2, rfl, rfl, hu2⟩ := List.map_eq_append_iff.1 ha
    cases a with
    | nil =>
      rw [List.nil_append, List.cons.injEq] at hb
      obtain ⟨rfl, _⟩ := hb
      cases h2
    | cons c' a =>
      rw [List.cons_append, List.cons.injEq] at hb
      obtain ⟨rfl, _⟩ := hb
      obtain ⟨u, u3, rfl, rfl, _⟩ := List.map_eq_cons_iff.1 hu2
      have hidx : ∀ (i : Nat) v, (([] : List AVStream) ++ u1)[i]? = some v → v.index = i := by
        intro i v hv
        rw [List.nil_append] at hv
        refine hs.index i v ?_
        rw [List.getElem?_append_left (List.getElem?_eq_some_iff.1 hv).1]; exact hv
      obtain ⟨names, hst⟩ := FileHandler.newTracks_state (FileHandler.new_state path disk) hidx h1
      rw [List.nil_append] at hst
      have hd := FaultyHandler.onNewTrack_error h2
      subst hd
      refine fin 0 u1 names _ (by omega) (List.prefix_append _ _) hst.named hst.diskState (fun _ _ => rfl) fun i => ?_
      refine ⟨?_, List.nil_prefix⟩
      unfold stored ofTrack
      rw [List.take_zero]
      split <;> simp

/-! ## A disk that is full -/

/-- The fourth operation fails after two bytes. -/
def fullDisk : Faults := fun n => if n = 3 then some 2 else none

/-- Two files are opened, an audio packet is written, the video packet is cut off after two bytes; the last audio packet is not written. -/
example : (FaultyHandler.mk (FileHandler.new ['o'] []) 0).handleAll fullDisk (sessionCalls exSessionTracks [exAudio 1, exAvccNonKey, exAudio 2]) |>.toOption.isNone := by
  decide +kernel

def diskOf : Except Disk FaultyHandler → Option Disk
  | .ok _ => none
  | .error d => some d

example : diskOf ((FaultyHandler.mk (FileHandler.new ['o'] []) 0).handleAll fullDisk (sessionCalls exSessionTracks [exAudio 1, exAvccNonKey, exAudio 2])) =
    some [(['o', '.', 'v', 'i', 'd', 'e', 'o', '.', '0', '.', 'H', '2', '6', '4'], ⟨132, [0, 0]⟩),
      (['o', '.', 'a', 'u', 'd', 'i', 'o', '.', '1', '.', 'A', 'A', 'C'], ⟨132, [1]⟩)] := by decide +kernel

example : Session exSessionTracks [exAudio 1, exAvccNonKey, exAudio 2] :=
  exSession _ (by simp [exAudio, exAvccNonKey])

end Avf
