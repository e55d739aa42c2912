import Verif.Lemmas.Handler
import Verif.Spec.HandlerFaults
/-! # Lemmas: the file handler on a disk that may fail -/
namespace Avf
open Go

theorem stored_total (ts : List AVStream) (ps : List AVPacket) : stored ts ps = FileHandler.total ts ps := by
  funext i; unfold stored FileHandler.total FileHandler.adds; rfl

theorem orDie_ok {α : Type} {d : Disk} {x : Go α} {a : α} (h : orDie d x = .ok a) : x = ok a := by
  cases x with
  | ok b => cases h; rfl
  | err m => cases h
  | panic => cases h

theorem orDie_error {α : Type} {d e : Disk} {x : Go α} (h : orDie d x = .error e) : e = d := by
  cases x with
  | ok b => cases h
  | err m => cases h; rfl
  | panic => cases h; rfl

theorem except_ok {α β : Type} {x : Except Disk α} {f : α → Except Disk β} {b : β} (h : (x >>= f) = .ok b) : ∃ a, x = .ok a ∧ f a = .ok b := by
  cases x with
  | ok a => exact ⟨a, rfl, h⟩
  | error e => cases h

theorem except_error {α β : Type} {x : Except Disk α} {f : α → Except Disk β} {d : Disk} (h : (x >>= f) = .error d) :
    x = .error d ∨ ∃ a, x = .ok a ∧ f a = .error d := by
  cases x with
  | ok a => exact .inr ⟨a, rfl, h⟩
  | error e => cases h; exact .inl rfl

namespace FaultyHandler

/-- Operations `a` to `b - 1` succeed. -/
def Fine (fs : Faults) (a b : Nat) : Prop := a ≤ b ∧ ∀ j, a ≤ j → j < b → fs j = none

theorem Fine.refl (fs : Faults) (a : Nat) : Fine fs a a := ⟨le_rfl, fun j h1 h2 => by omega⟩

theorem Fine.one {fs : Faults} {a : Nat} (h : fs a = none) : Fine fs a (a + 1) :=
  ⟨by omega, fun j h1 h2 => by rw [show j = a by omega]; exact h⟩

theorem Fine.trans {fs : Faults} {a b c : Nat} (h : Fine fs a b) (h' : Fine fs b c) : Fine fs a c :=
  ⟨h.1.trans h'.1, fun j h1 h2 => by
    by_cases hj : j < b
    · exact h.2 j h1 hj
    · exact h'.2 j (by omega) h2⟩

theorem onNewTrack_ok {fs : Faults} {o o' : FaultyHandler} {t : AVStream} (h : o.onNewTrack fs t = .ok o') :
    o.toFileHandler.onNewTrack t = ok o'.toFileHandler ∧ Fine fs o.ops o'.ops := by
  unfold onNewTrack at h
  obtain ⟨x, h1, h⟩ := except_ok h
  obtain ⟨n, h2, h⟩ := except_ok h
  unfold FileHandler.onNewTrack
  rw [orDie_ok h1, ok_bind, orDie_ok h2, ok_bind]
  cases hf : fs o.ops with
  | none => rw [hf] at h; cases h; exact ⟨rfl, .one hf⟩
  | some k => rw [hf] at h; cases h

theorem logNewTrack_disk {o o' : FileHandler} {t : AVStream} (h : o.logNewTrack t = ok o') : o'.disk = o.disk := by
  unfold FileHandler.logNewTrack at h
  simp only [TrackManager.add] at h
  rw [if_neg (by simp)] at h
  obtain ⟨_, _, h⟩ := bind_eq_ok.1 h
  cases h; rfl

theorem onNewTrack_error {fs : Faults} {o : FaultyHandler} {t : AVStream} {d : Disk} (h : o.onNewTrack fs t = .error d) : d = o.disk := by
  unfold onNewTrack at h
  rcases except_error h with h | ⟨x, h1, h⟩
  · exact orDie_error h
  have hx := logNewTrack_disk (orDie_ok h1)
  rcases except_error h with h | ⟨n, h2, h⟩
  · rw [orDie_error h, hx]
  cases hf : fs o.ops with
  | none => rw [hf] at h; cases h
  | some k => rw [hf] at h; cases h; exact hx

theorem writeTo_ok {fs : Faults} {o o' : FaultyHandler} {i : Int} {b : Bytes} (h : o.writeTo fs i b = .ok o') :
    o.toFileHandler.writeTo i b = ok o'.toFileHandler ∧ Fine fs o.ops o'.ops := by
  unfold writeTo at h
  obtain ⟨f, h1, h⟩ := except_ok h
  unfold FileHandler.writeTo
  rw [orDie_ok h1, ok_bind]
  cases hf : fs o.ops with
  | none => rw [hf] at h; cases h; exact ⟨rfl, .one hf⟩
  | some k => rw [hf] at h; cases h

theorem writeTo_error {fs : Faults} {o : FaultyHandler} {i : Int} {b : Bytes} {d : Disk} (h : o.writeTo fs i b = .error d) :
    d = o.disk ∨ ∃ n o', o.toFileHandler.writeTo i (b.take n) = ok o' ∧ o'.disk = d := by
  unfold writeTo at h
  rcases except_error h with h | ⟨f, h1, h⟩
  · exact .inl (orDie_error h)
  cases hf : fs o.ops with
  | none => rw [hf] at h; cases h
  | some k =>
    rw [hf] at h; cases h
    refine .inr ⟨k, { o.toFileHandler with fos := o.fos.set i.toNat (o.disk.write f (b.take k)).1, disk := (o.disk.write f (b.take k)).2 }, ?_, rfl⟩
    unfold FileHandler.writeTo
    rw [orDie_ok h1, ok_bind]
    rfl

theorem logPacket_same {o o' : FileHandler} {p : AVPacket} (h : o.logPacket p = ok o') : o' = o := by
  unfold FileHandler.logPacket at h
  obtain ⟨_, _, h⟩ := bind_eq_ok.1 h
  cases h; rfl

theorem onPacket_ok {fs : Faults} {o o' : FaultyHandler} {p : AVPacket} (h : o.onPacket fs p = .ok o') :
    o.toFileHandler.onPacket p = ok o'.toFileHandler ∧ Fine fs o.ops o'.ops := by
  unfold onPacket at h
  obtain ⟨x, h1, h⟩ := except_ok h
  have hx := logPacket_same (orDie_ok h1)
  unfold FileHandler.onPacket
  rw [orDie_ok h1, ok_bind]
  subst hx
  by_cases hv : p.mediaType = mediaVideo
  · rw [if_pos hv] at h ⊢
    obtain ⟨st, h2, h⟩ := except_ok h
    obtain ⟨⟨data, q⟩, h3, h⟩ := except_ok h
    rw [orDie_ok h2, ok_bind, orDie_ok h3, ok_bind]
    dsimp only at h ⊢
    cases hc : st.codecParameters with
    | none => rw [hc] at h; exact writeTo_ok h
    | some c =>
      rw [hc] at h
      dsimp only at h ⊢
      by_cases hk : q.key = true ∧ q.packetType = packAVCC
      · rw [if_pos hk] at h ⊢
        obtain ⟨y, h4, h⟩ := except_ok h
        obtain ⟨h5, f5⟩ := writeTo_ok h4
        obtain ⟨h6, f6⟩ := writeTo_ok h
        refine ⟨?_, f5.trans f6⟩
        rw [h5, ok_bind, h6]
      · rw [if_neg hk] at h ⊢
        exact writeTo_ok h
  · rw [if_neg hv] at h ⊢
    exact writeTo_ok h

theorem handle_ok {fs : Faults} {o o' : FaultyHandler} {c : Call} (h : o.handle fs c = .ok o') :
    o.toFileHandler.handle c = ok o'.toFileHandler ∧ Fine fs o.ops o'.ops := by
  cases c with
  | newTrack t => exact onNewTrack_ok h
  | packet p => exact onPacket_ok h
  | _ => cases h; exact ⟨rfl, .refl _ _⟩

theorem handleAll_ok {fs : Faults} {o o' : FaultyHandler} {cs : List Call} (h : o.handleAll fs cs = .ok o') :
    o.toFileHandler.handleAll cs = ok o'.toFileHandler ∧ Fine fs o.ops o'.ops := by
  induction cs generalizing o with
  | nil => cases h; exact ⟨rfl, .refl _ _⟩
  | cons c cs ih =>
    obtain ⟨x, h1, h⟩ := except_ok (show (o.handle fs c >>= fun o => o.handleAll fs cs) = .ok o' from h)
    obtain ⟨h2, f2⟩ := handle_ok h1
    obtain ⟨h3, f3⟩ := ih h
    refine ⟨?_, f2.trans f3⟩
    show (o.toFileHandler.handle c >>= fun o => o.handleAll cs) = _
    rw [h2, ok_bind, h3]

/-- A run that dies, dies in one of the calls. -/
theorem handleAll_error {fs : Faults} {o : FaultyHandler} {cs : List Call} {d : Disk} (h : o.handleAll fs cs = .error d) :
    ∃ (as : List Call) (c : Call) (bs : List Call) (x : FaultyHandler), cs = as ++ c :: bs ∧ o.handleAll fs as = .ok x ∧ x.handle fs c = .error d := by
  induction cs generalizing o with
  | nil => cases h
  | cons c cs ih =>
    rcases except_error (show (o.handle fs c >>= fun o => o.handleAll fs cs) = .error d from h) with h | ⟨x, h1, h⟩
    · exact ⟨[], c, cs, o, rfl, rfl, h⟩
    · obtain ⟨as, c', bs, y, rfl, h2, h3⟩ := ih h
      refine ⟨c :: as, c', bs, y, rfl, ?_, h3⟩
      show (o.handle fs c >>= fun o => o.handleAll fs as) = _
      rw [h1]; exact h2

/-- Every new track and every packet takes an operation of the disk. -/
theorem handle_count {fs : Faults} {o o' : FaultyHandler} {c : Call} (h : o.handle fs c = .ok o') :
    o.ops + (match c with | .newTrack _ => 1 | .packet _ => 1 | _ => 0) ≤ o'.ops := by
  have wr : ∀ {a b : FaultyHandler} {i : Int} {d : Bytes}, a.writeTo fs i d = .ok b → b.ops = a.ops + 1 := by
    intro a b i d h
    unfold writeTo at h
    obtain ⟨f, h1, h⟩ := except_ok h
    cases hf : fs a.ops with
    | none => rw [hf] at h; cases h; rfl
    | some k => rw [hf] at h; cases h
  cases c with
  | newTrack t =>
    change o.onNewTrack fs t = .ok o' at h
    unfold onNewTrack at h
    obtain ⟨x, h1, h⟩ := except_ok h
    obtain ⟨n, h2, h⟩ := except_ok h
    cases hf : fs o.ops with
    | none => rw [hf] at h; cases h; exact le_rfl
    | some k => rw [hf] at h; cases h
  | packet p =>
    change o.onPacket fs p = .ok o' at h
    show o.ops + 1 ≤ o'.ops
    unfold onPacket at h
    obtain ⟨x, h1, h⟩ := except_ok h
    by_cases hv : p.mediaType = mediaVideo
    · rw [if_pos hv] at h
      obtain ⟨st, h2, h⟩ := except_ok h
      obtain ⟨⟨data, q⟩, h3, h⟩ := except_ok h
      dsimp only at h
      cases hc : st.codecParameters with
      | none => rw [hc] at h; exact (wr h).ge
      | some c =>
        rw [hc] at h
        dsimp only at h
        by_cases hk : q.key = true ∧ q.packetType = packAVCC
        · rw [if_pos hk] at h
          obtain ⟨y, h4, h⟩ := except_ok h
          have := wr h4
          have := wr h
          dsimp only at *
          omega
        · rw [if_neg hk] at h
          exact (wr h).ge
    · rw [if_neg hv] at h
      exact (wr h).ge
  | _ => cases h; exact le_rfl

theorem handleAll_count {fs : Faults} {o o' : FaultyHandler} {cs : List Call} (h : o.handleAll fs cs = .ok o') :
    o.ops + (cs.filter fun c => match c with | .newTrack _ => true | .packet _ => true | _ => false).length ≤ o'.ops := by
  induction cs generalizing o with
  | nil => cases h; exact le_rfl
  | cons c cs ih =>
    obtain ⟨x, h1, h⟩ := except_ok (show (o.handle fs c >>= fun o => o.handleAll fs cs) = .ok o' from h)
    have h2 := handle_count h1
    have h3 := ih h
    rw [List.filter_cons]
    cases c <;> simp only [if_true, List.length_cons, reduceIte, Bool.false_eq_true] at h2 ⊢ <;> omega

/-! ## Without faults -/

theorem writeTo_none {o : FaultyHandler} {i : Int} {b : Bytes} {x : FileHandler} (h : o.toFileHandler.writeTo i b = ok x) :
    ∃ k, o.writeTo (fun _ => none) i b = .ok ⟨x, k⟩ := by
  unfold FileHandler.writeTo at h
  obtain ⟨f, h1, h⟩ := bind_eq_ok.1 h
  unfold writeTo
  rw [h1]
  cases h
  exact ⟨_, rfl⟩

theorem onPacket_none {o : FaultyHandler} {p : AVPacket} {x : FileHandler} (h : o.toFileHandler.onPacket p = ok x) :
    ∃ k, o.onPacket (fun _ => none) p = .ok ⟨x, k⟩ := by
  unfold FileHandler.onPacket at h
  obtain ⟨y, h1, h⟩ := bind_eq_ok.1 h
  unfold onPacket
  rw [h1]
  have hx := logPacket_same h1
  subst hx
  show ∃ k, (if p.mediaType = mediaVideo then _ else _) = _
  by_cases hv : p.mediaType = mediaVideo
  · rw [if_pos hv] at h ⊢
    obtain ⟨st, h2, h⟩ := bind_eq_ok.1 h
    obtain ⟨⟨data, q⟩, h3, h⟩ := bind_eq_ok.1 h
    rw [h2]
    dsimp only [orDie, bind, Except.bind]
    rw [h3]
    dsimp only at h ⊢
    cases hc : st.codecParameters with
    | none => rw [hc] at h; exact writeTo_none h
    | some c =>
      rw [hc] at h
      dsimp only at h ⊢
      by_cases hk : q.key = true ∧ q.packetType = packAVCC
      · rw [if_pos hk] at h ⊢
        obtain ⟨y, h4, h⟩ := bind_eq_ok.1 h
        obtain ⟨k, h5⟩ := writeTo_none h4
        rw [h5]
        exact writeTo_none (o := ⟨y, k⟩) h
      · rw [if_neg hk] at h ⊢
        exact writeTo_none h
  · rw [if_neg hv] at h ⊢
    exact writeTo_none h

theorem handle_none {o : FaultyHandler} {c : Call} {x : FileHandler} (h : o.toFileHandler.handle c = ok x) :
    ∃ k, o.handle (fun _ => none) c = .ok ⟨x, k⟩ := by
  cases c with
  | newTrack t =>
    change o.toFileHandler.onNewTrack t = ok x at h
    show ∃ k, o.onNewTrack (fun _ => none) t = .ok ⟨x, k⟩
    unfold FileHandler.onNewTrack at h
    obtain ⟨y, h1, h⟩ := bind_eq_ok.1 h
    obtain ⟨n, h2, h⟩ := bind_eq_ok.1 h
    unfold onNewTrack
    rw [h1]
    dsimp only [orDie, bind, Except.bind]
    rw [h2]
    cases h
    exact ⟨_, rfl⟩
  | packet p => exact onPacket_none h
  | _ => cases h; exact ⟨_, rfl⟩

theorem handleAll_none {o : FaultyHandler} {cs : List Call} {x : FileHandler} (h : o.toFileHandler.handleAll cs = ok x) :
    ∃ k, o.handleAll (fun _ => none) cs = .ok ⟨x, k⟩ := by
  induction cs generalizing o with
  | nil => cases h; exact ⟨_, rfl⟩
  | cons c cs ih =>
    obtain ⟨y, h1, h⟩ := bind_eq_ok.1 (show (o.toFileHandler.handle c >>= fun o => o.handleAll cs) = _ from h)
    obtain ⟨k, h2⟩ := handle_none h1
    obtain ⟨k', h3⟩ := ih (o := ⟨y, k⟩) h
    refine ⟨k', ?_⟩
    show (o.handle _ c >>= fun o => o.handleAll _ cs) = _
    rw [h2]; exact h3

/-! ## What is left behind -/

/-- The disk part of `FileHandler.State`. -/
structure DiskState (base : Disk) (names : List (List Char)) (w : Nat → Bytes) (d : Disk) : Prop where
  own : ∀ i n, names[i]? = some n →
    d.lookup n = some { FileHandler.before base n with data := w i ++ (FileHandler.before base n).data.drop (w i).length }
  others : ∀ n ∉ names, d.lookup n = base.lookup n

theorem _root_.Avf.FileHandler.State.diskState {path : List Char} {base : Disk} {ts : List AVStream} {names : List (List Char)} {w : Nat → Bytes}
    {o : FileHandler} (h : FileHandler.State path base ts names w o) : DiskState base names w o.disk := ⟨h.own, h.others⟩

/-- A write that fails in the middle. -/
theorem writeTo_left {path : List Char} {base : Disk} {ts : List AVStream} {names : List (List Char)} {w : Nat → Bytes} {fs : Faults}
    {o : FaultyHandler} {d : Disk} (h : FileHandler.State path base ts names w o.toFileHandler) (hx : ∀ (i : Nat) u, ts[i]? = some u → u.index = i)
    {i : Nat} (hi : i < ts.length) {b : Bytes} (he : o.writeTo fs i b = .error d) :
    ∃ v, v <+: b ∧ DiskState base names (fun j => if i = j then w j ++ v else w j) d := by
  rcases writeTo_error he with rfl | ⟨n, o', h1, rfl⟩
  · refine ⟨[], List.nil_prefix, ?_⟩
    have : (fun j => if i = j then w j ++ [] else w j) = w := by funext j; simp
    rw [this]; exact h.diskState
  · obtain ⟨x, h2, hs⟩ := FileHandler.writeTo_state h hx hi (b.take n)
    rw [h1] at h2; cases h2
    exact ⟨_, List.take_prefix _ _, hs.diskState⟩

theorem onPacket_left {path : List Char} {base : Disk} {ts : List AVStream} {names : List (List Char)} {w : Nat → Bytes} {fs : Faults}
    {o : FaultyHandler} {d : Disk} (h : FileHandler.State path base ts names w o.toFileHandler) (hx : ∀ (i : Nat) u, ts[i]? = some u → u.index = i)
    {i : Nat} {t : AVStream} (ht : ts[i]? = some t) {p : AVPacket} (hp : p.index = i) (he : o.onPacket fs p = .error d) :
    ∃ v, v <+: FileHandler.adds t p ∧ DiskState base names (fun j => if i = j then w j ++ v else w j) d := by
  have hi := (List.getElem?_eq_some_iff.1 ht).1
  have hsame : ∃ v, v <+: FileHandler.adds t p ∧ DiskState base names (fun j => if i = j then w j ++ v else w j) o.disk := by
    refine ⟨[], List.nil_prefix, ?_⟩
    have : (fun j => if i = j then w j ++ [] else w j) = w := by funext j; simp
    rw [this]; exact h.diskState
  have hget : o.tracks.get p.index = ok t := by
    unfold TrackManager.get
    rw [h.tracks, hp, Demuxer.idxI_natCast]
    unfold idx
    rw [ht]
  unfold onPacket at he
  rcases except_error he with he | ⟨x, h1, he⟩
  · rw [orDie_error he]; exact hsame
  have hx' := logPacket_same (orDie_ok h1)
  subst hx'
  dsimp only at he
  by_cases hv : p.mediaType = mediaVideo
  · rw [if_pos hv] at he
    rcases except_error he with he | ⟨st, h2, he⟩
    · rw [orDie_error he]; exact hsame
    have h2 := orDie_ok h2
    rw [hget] at h2
    cases h2
    rcases except_error he with he | ⟨⟨data, q⟩, h3, he⟩
    · rw [orDie_error he]; exact hsame
    have h3 := orDie_ok h3
    have hp' := (C68_repeat t p q data h3).1
    have hkey : q.key = p.key ∧ q.packetType = p.packetType ∧ q.index = p.index := by rw [hp']; exact ⟨rfl, rfl, rfl⟩
    have hel : elementary t p = data := by unfold elementary; rw [if_pos hv, h3]
    dsimp only at he
    rw [hkey.1, hkey.2.1, hkey.2.2, hp] at he
    cases hc : t.codecParameters with
    | none =>
      rw [hc] at he
      have hdb : doubled t p = [] := by unfold doubled; rw [hc]; simp
      obtain ⟨v, h4, h5⟩ := writeTo_left (o := ⟨o.toFileHandler, o.ops⟩) h hx hi he
      refine ⟨v, ?_, h5⟩
      unfold FileHandler.adds
      rw [hdb, hel]; exact h4
    | some c =>
      rw [hc] at he
      dsimp only at he
      by_cases hk : p.key = true ∧ p.packetType = packAVCC
      · rw [if_pos hk] at he
        have hdb : doubled t p = c.annexBExtraData := by unfold doubled; rw [if_pos ⟨hv, hk⟩, hc]
        unfold FileHandler.adds
        rw [hdb, hel]
        rcases except_error he with he | ⟨y, h4, he⟩
        · obtain ⟨v, h5, h6⟩ := writeTo_left (o := ⟨o.toFileHandler, o.ops⟩) h hx hi he
          exact ⟨v, h5.trans (List.prefix_append _ _), h6⟩
        · obtain ⟨z, h5, hs⟩ := FileHandler.writeTo_state h hx hi c.annexBExtraData
          have h6 := (writeTo_ok h4).1
          rw [h5] at h6
          cases h6
          obtain ⟨v, h7, h8⟩ := writeTo_left (o := y) hs hx hi he
          refine ⟨c.annexBExtraData ++ v, (List.prefix_append_right_inj _).2 h7, ?_⟩
          convert h8 using 2 with j
          by_cases hj : i = j
          · simp [hj]
          · simp [hj]
      · rw [if_neg hk] at he
        have hdb : doubled t p = [] := by unfold doubled; rw [if_neg (fun e => hk e.2)]
        obtain ⟨v, h4, h5⟩ := writeTo_left (o := ⟨o.toFileHandler, o.ops⟩) h hx hi he
        refine ⟨v, ?_, h5⟩
        unfold FileHandler.adds
        rw [hdb, hel]; exact h4
  · rw [if_neg hv, hp] at he
    have hel : elementary t p = p.data := by unfold elementary; rw [if_neg hv]
    have hdb : doubled t p = [] := by unfold doubled; rw [if_neg (fun e => hv e.1)]
    obtain ⟨v, h4, h5⟩ := writeTo_left (o := ⟨o.toFileHandler, o.ops⟩) h hx hi he
    refine ⟨v, ?_, h5⟩
    unfold FileHandler.adds
    rw [hdb, hel]; exact h4

end FaultyHandler
end Avf
