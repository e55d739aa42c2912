import Verif.Spec.Handler
import Verif.Props.Packet
import Verif.Lemmas.DemuxerQueue
/-! # Lemmas: names, the disk and the file handler -/
namespace Avf
open Go

/-! ## Names -/

theorem toDigits_inj {a b : Nat} (h : Nat.toDigits 10 a = Nat.toDigits 10 b) : a = b := by
  rw [← Nat.ofDigitChars_toDigits (b := 10) (n := a) (by decide) (by decide), h, Nat.ofDigitChars_toDigits (by decide) (by decide)]

theorem digit_of_mem {n : Nat} {c : Char} (h : c ∈ Nat.toDigits 10 n) : c.isDigit = true :=
  Nat.isDigit_of_mem_toDigits (by decide) (by decide) h

theorem itoa_inj {a b : Int} (h : itoa a = itoa b) : a = b := by
  unfold itoa at h
  have hneg : ∀ n m : Nat, '-' :: Nat.toDigits 10 n ≠ Nat.toDigits 10 m := by
    intro n m e
    have : ('-' : Char) ∈ Nat.toDigits 10 m := e ▸ List.mem_cons_self ..
    exact absurd (digit_of_mem this) (by decide)
  split at h <;> split at h
  · have := toDigits_inj (List.cons.inj h).2; omega
  · exact absurd h (hneg _ _)
  · exact absurd h.symm (hneg _ _)
  · have := toDigits_inj h; omega

theorem itoa_chars {n : Int} {c : Char} (h : c ∈ itoa n) : c = '-' ∨ c.isDigit = true := by
  unfold itoa at h
  split at h
  · rcases List.mem_cons.1 h with rfl | h
    · exact Or.inl rfl
    · exact Or.inr (digit_of_mem h)
  · exact Or.inr (digit_of_mem h)

theorem itoa_no_dot {n : Int} : '.' ∉ itoa n := by
  intro h
  rcases itoa_chars h with h | h
  · cases h
  · exact absurd h (by decide)

theorem mediaTypeString_ok (m : Int) : (∃ s, mediaTypeString m = ok s) ↔ NamedType m := by
  unfold NamedType
  constructor
  · rintro ⟨s, h⟩
    unfold mediaTypeString mediaUnknown mediaVideo mediaAudio at h
    split_ifs at h <;> first | omega | cases h
  · intro ⟨h1, h2⟩
    have : m = -1 ∨ m = 0 ∨ m = 1 ∨ m = 2 ∨ m = 3 ∨ m = 4 ∨ m = 5 := by omega
    rcases this with rfl | rfl | rfl | rfl | rfl | rfl | rfl <;> exact ⟨_, rfl⟩

theorem mediaTypeString_no_dot {m : Int} {s : List Char} (h : mediaTypeString m = ok s) : '.' ∉ s := by
  unfold mediaTypeString at h
  split_ifs at h <;> (cases h; decide)

theorem append_dot_inj {a b x y : List Char} (ha : '.' ∉ a) (hb : '.' ∉ b) (h : a ++ '.' :: x = b ++ '.' :: y) : a = b ∧ x = y := by
  induction a generalizing b with
  | nil =>
    cases b with
    | nil => exact ⟨rfl, (List.cons.inj h).2⟩
    | cons c b => exact absurd ((List.cons.inj h).1 ▸ List.mem_cons_self ..) hb
  | cons c a ih =>
    cases b with
    | nil => exact absurd ((List.cons.inj h).1 ▸ List.mem_cons_self ..) ha
    | cons d b =>
      rw [List.cons_append, List.cons_append] at h
      obtain ⟨hcd, hrest⟩ := List.cons.inj h
      obtain ⟨hab, h2⟩ := ih (fun hm => ha (List.mem_cons_of_mem _ hm)) (fun hm => hb (List.mem_cons_of_mem _ hm)) hrest
      exact ⟨by rw [hcd, hab], h2⟩

theorem append_dot_inj_right {a b x y : List Char} (hx : '.' ∉ x) (hy : '.' ∉ y) (h : a ++ '.' :: x = b ++ '.' :: y) : a = b ∧ x = y := by
  have h' : x.reverse ++ '.' :: a.reverse = y.reverse ++ '.' :: b.reverse := by simpa using congrArg List.reverse h
  obtain ⟨h1, h2⟩ := append_dot_inj (by simpa using hx) (by simpa using hy) h'
  exact ⟨List.reverse_injective h2, List.reverse_injective h1⟩

theorem mediaTypeString_inj {m k : Int} (hm : NamedType m) (hk : NamedType k) (h : mediaTypeString m = mediaTypeString k) : m = k := by
  obtain ⟨h1, h2⟩ := hm
  obtain ⟨h3, h4⟩ := hk
  have e1 : m = -1 ∨ m = 0 ∨ m = 1 ∨ m = 2 ∨ m = 3 ∨ m = 4 ∨ m = 5 := by omega
  have e2 : k = -1 ∨ k = 0 ∨ k = 1 ∨ k = 2 ∨ k = 3 ∨ k = 4 ∨ k = 5 := by omega
  rcases e1 with rfl | rfl | rfl | rfl | rfl | rfl | rfl <;> rcases e2 with rfl | rfl | rfl | rfl | rfl | rfl | rfl <;>
    first | rfl | exact absurd h (by decide)

theorem itoa_toString (n : Int) : itoa n = (toString n).toList := by
  show _ = (Int.repr n).toList
  unfold itoa
  cases n with
  | ofNat m => 
    rw [if_neg (by simp)]
    simp [Int.repr, Nat.repr]
  | negSucc m =>
    rw [if_pos (by omega)]
    simp [Int.repr, Nat.repr]

/-- The codecs with names of their own. -/
def codecNames : List (Int × List Char) :=
  [(4, ['H', '2', '6', '3']), (codecH264, ['H', '2', '6', '4']), (codecH265, ['H', '2', '6', '5']), (0x8b, ['V', 'P', '8']),
   (0xa7, ['V', 'P', '9']), (0x801d, ['A', 'V', '1']), (codecAAC, ['A', 'A', 'C']), (0x10007, ['P', 'C', 'M', 'A']),
   (0x10006, ['P', 'C', 'M', 'U']), (0x1503c, ['O', 'P', 'U', 'S']), (0x15001, ['M', 'P', '3']), (0x1101c, ['G', '7', '2', '2']),
   (codecG726, ['G', '7', '2', '6']), (codecPCMS16LE, ['P', 'C', 'M', 'S', '1', '6', 'L', 'E'])]

theorem codecIDString_cases (a : Int) : (a, codecIDString a) ∈ codecNames ∨ codecIDString a = itoa a := by
  unfold codecIDString
  by_cases h : a = 4
  · subst h; exact Or.inl (by decide)
  rw [if_neg h]; clear h
  by_cases h : a = codecH264
  · subst h; exact Or.inl (by decide)
  rw [if_neg h]; clear h
  by_cases h : a = codecH265
  · subst h; exact Or.inl (by decide)
  rw [if_neg h]; clear h
  by_cases h : a = 0x8b
  · subst h; exact Or.inl (by decide)
  rw [if_neg h]; clear h
  by_cases h : a = 0xa7
  · subst h; exact Or.inl (by decide)
  rw [if_neg h]; clear h
  by_cases h : a = 0x801d
  · subst h; exact Or.inl (by decide)
  rw [if_neg h]; clear h
  by_cases h : a = codecAAC
  · subst h; exact Or.inl (by decide)
  rw [if_neg h]; clear h
  by_cases h : a = 0x10007
  · subst h; exact Or.inl (by decide)
  rw [if_neg h]; clear h
  by_cases h : a = 0x10006
  · subst h; exact Or.inl (by decide)
  rw [if_neg h]; clear h
  by_cases h : a = 0x1503c
  · subst h; exact Or.inl (by decide)
  rw [if_neg h]; clear h
  by_cases h : a = 0x15001
  · subst h; exact Or.inl (by decide)
  rw [if_neg h]; clear h
  by_cases h : a = 0x1101c
  · subst h; exact Or.inl (by decide)
  rw [if_neg h]; clear h
  by_cases h : a = codecG726
  · subst h; exact Or.inl (by decide)
  rw [if_neg h]; clear h
  by_cases h : a = codecPCMS16LE
  · subst h; exact Or.inl (by decide)
  rw [if_neg h]; clear h
  exact Or.inr rfl

theorem codecNames_inj : ∀ x ∈ codecNames, ∀ y ∈ codecNames, x.2 = y.2 → x.1 = y.1 := by decide

theorem codecNames_letter : ∀ x ∈ codecNames, ∃ c ∈ x.2, ¬ (c = '-' ∨ c.isDigit = true) := by decide

theorem codecNames_no_dot : ∀ x ∈ codecNames, '.' ∉ x.2 := by decide

theorem codecIDString_no_dot {a : Int} : '.' ∉ codecIDString a := by
  rcases codecIDString_cases a with h | h
  · exact codecNames_no_dot _ h
  · rw [h]; exact itoa_no_dot

theorem codecIDString_inj {a b : Int} (h : codecIDString a = codecIDString b) : a = b := by
  rcases codecIDString_cases a with h1 | h1 <;> rcases codecIDString_cases b with h2 | h2
  · exact codecNames_inj _ h1 _ h2 h
  · obtain ⟨c, hc, hn⟩ := codecNames_letter _ h1
    dsimp only at hc
    rw [h, h2] at hc
    exact absurd (itoa_chars hc) hn
  · obtain ⟨c, hc, hn⟩ := codecNames_letter _ h2
    dsimp only at hc
    rw [← h, h1] at hc
    exact absurd (itoa_chars hc) hn
  · exact itoa_inj (by rw [← h1, ← h2, h])

theorem fileName_parts {path n : List Char} {t : AVStream} (h : FileHandler.fileName path t = ok n) :
    ∃ m, mediaTypeString t.mediaType = ok m ∧ n = path ++ '.' :: (m ++ '.' :: (itoa t.index ++ '.' :: codecIDString t.codecID)) := by
  unfold FileHandler.fileName at h
  obtain ⟨m, hm, h⟩ := bind_eq_ok.1 h
  refine ⟨m, hm, ?_⟩
  cases h
  simp

theorem fileName_inj {path n : List Char} {t u : AVStream} (h : FileHandler.fileName path t = ok n) (h' : FileHandler.fileName path u = ok n) :
    mediaTypeString t.mediaType = mediaTypeString u.mediaType ∧ t.index = u.index ∧ codecIDString t.codecID = codecIDString u.codecID := by
  obtain ⟨m, hm, e⟩ := fileName_parts h
  obtain ⟨m', hm', e'⟩ := fileName_parts h'
  rw [e] at e'
  have e1 := (List.cons.inj (List.append_cancel_left e')).2
  obtain ⟨rfl, e2⟩ := append_dot_inj (mediaTypeString_no_dot hm) (mediaTypeString_no_dot hm') e1
  obtain ⟨e3, e4⟩ := append_dot_inj itoa_no_dot itoa_no_dot e2
  exact ⟨by rw [hm, hm'], itoa_inj e3, e4⟩

/-! ## The disk -/

theorem lookup_snoc (d : Disk) (n : List Char) (x : DiskFile) (k : List Char) :
    (d ++ [(n, x)]).lookup k = (d.lookup k).or (if k = n then some x else none) := by
  induction d with
  | nil =>
    by_cases h : k = n
    · subst h; simp
    · simp [List.lookup_cons, h, beq_eq_false_iff_ne.2 h]
  | cons e d ih =>
    obtain ⟨m, y⟩ := e
    rw [List.cons_append, List.lookup_cons, List.lookup_cons, ih]
    cases k == m <;> rfl

theorem lookup_open (d : Disk) (n : List Char) (perm : Nat) (k : List Char) :
    (d.openFile n perm).2.lookup k = if k = n then some ((d.lookup n).getD ⟨perm, []⟩) else d.lookup k := by
  unfold Disk.openFile
  cases h : d.lookup n with
  | some x =>
    by_cases hk : k = n
    · subst hk; rw [if_pos rfl, h]; rfl
    · rw [if_neg hk]
  | none =>
    dsimp only
    rw [lookup_snoc]
    by_cases hk : k = n
    · subst hk; rw [if_pos rfl, if_pos rfl, h]; rfl
    · rw [if_neg hk, if_neg hk]; cases d.lookup k <;> rfl

theorem lookup_write (d : Disk) (f : OpenFile) (b : Bytes) (k : List Char) :
    (d.write f b).2.lookup k =
      if k = f.name then (d.lookup k).map fun x => { x with data := writeAt x.data f.pos b } else d.lookup k := by
  unfold Disk.write
  dsimp only
  induction d with
  | nil => simp
  | cons e d ih =>
    obtain ⟨m, y⟩ := e
    rw [List.map_cons, List.lookup_cons]
    by_cases hm : m = f.name
    · subst hm
      simp only [if_true]
      rw [List.lookup_cons, ih]
      by_cases hk : k = f.name
      · subst hk; simp
      · simp [hk, beq_eq_false_iff_ne.2 hk]
    · simp only [if_neg hm]
      rw [List.lookup_cons, ih]
      by_cases hk : k = m
      · subst hk; simp [hm]
      · simp [beq_eq_false_iff_ne.2 hk]

/-- Writing on: what was written before grows. -/
theorem writeAt_next (w base b : Bytes) : writeAt (w ++ base.drop w.length) w.length b = (w ++ b) ++ base.drop (w ++ b).length := by
  unfold writeAt
  rw [List.take_left, List.length_append, Nat.sub_eq_zero_of_le (by omega), List.replicate_zero, List.append_nil]
  congr 1
  rw [List.drop_append, List.drop_drop, List.drop_eq_nil_of_le (by omega), List.nil_append, List.length_append]
  congr 1
  omega

/-! ## The handler -/
namespace FileHandler

/-- What one packet adds. -/
def adds (t : AVStream) (p : AVPacket) : Bytes := doubled t p ++ elementary t p

/-- The file before the handler used it. -/
def before (base : Disk) (n : List Char) : DiskFile := (base.lookup n).getD ⟨132, []⟩

/-- The state of the handler: `w i` has been written for track `i`. -/
structure State (path : List Char) (base : Disk) (ts : List AVStream) (names : List (List Char)) (w : Nat → Bytes) (o : FileHandler) : Prop where
  root : o.path = path
  tracks : o.tracks.tracks = ts
  named : List.Forall₂ (fun t n => fileName path t = ok n) ts names
  fos : o.fos = names.mapIdx fun i n => ⟨n, (w i).length⟩
  own : ∀ i n, names[i]? = some n → o.disk.lookup n = some { before base n with data := w i ++ (before base n).data.drop (w i).length }
  others : ∀ n ∉ names, o.disk.lookup n = base.lookup n

theorem names_at {path : List Char} {ts : List AVStream} {names : List (List Char)}
    (h : List.Forall₂ (fun t n => fileName path t = ok n) ts names) (i : Nat) :
    (ts[i]? = none ∧ names[i]? = none) ∨ ∃ t n, ts[i]? = some t ∧ names[i]? = some n ∧ fileName path t = ok n := by
  induction h generalizing i with
  | nil => left; simp
  | cons hr _ ih =>
    cases i with
    | zero => right; exact ⟨_, _, rfl, rfl, hr⟩
    | succ i => simpa using ih i

/-- Different tracks have different files. -/
theorem names_inj {path : List Char} {ts : List AVStream} {names : List (List Char)} (hx : ∀ (i : Nat) t, ts[i]? = some t → t.index = i)
    (h : List.Forall₂ (fun t n => fileName path t = ok n) ts names) {i j : Nat} {n : List Char} (hi : names[i]? = some n) (hj : names[j]? = some n) :
    i = j := by
  rcases names_at h i with ⟨_, h1⟩ | ⟨t, _, h1, h2, h3⟩
  · rw [hi] at h1; cases h1
  rcases names_at h j with ⟨_, h4⟩ | ⟨u, _, h4, h5, h6⟩
  · rw [hj] at h4; cases h4
  rw [hi] at h2
  rw [hj] at h5
  cases h2; cases h5
  have := (fileName_inj h3 h6).2.1
  rw [hx i t h1, hx j u h4] at this
  exact_mod_cast this

theorem onNewTrack_state {path : List Char} {base : Disk} {ts : List AVStream} {names : List (List Char)} {o o' : FileHandler} {t : AVStream}
    (h : State path base ts names (fun _ => []) o) (hx : ∀ (i : Nat) u, (ts ++ [t])[i]? = some u → u.index = i) (hr : o.onNewTrack t = ok o') :
    ∃ n, fileName path t = ok n ∧ State path base (ts ++ [t]) (names ++ [n]) (fun _ => []) o' := by
  unfold onNewTrack at hr
  obtain ⟨o1, h1, hr⟩ := bind_eq_ok.1 hr
  obtain ⟨n, h2, hr⟩ := bind_eq_ok.1 hr
  have e1 : o1 = { o with tracks := { tracks := o.tracks.tracks ++ [t] } } := by
    unfold logNewTrack at h1
    simp only [TrackManager.add] at h1
    rw [if_neg (by simp)] at h1
    obtain ⟨_, _, h1⟩ := bind_eq_ok.1 h1
    cases h1; rfl
  subst e1
  dsimp only at h2 hr
  rw [h.root] at h2
  cases hr
  have hnames : List.Forall₂ (fun t n => fileName path t = ok n) (ts ++ [t]) (names ++ [n]) := List.rel_append h.named (.cons h2 .nil)
  have hfresh : n ∉ names := by
    intro hm
    obtain ⟨j, hj⟩ := List.mem_iff_getElem?.1 hm
    have hjl := (List.getElem?_eq_some_iff.1 hj).1
    have := names_inj hx hnames (i := j) (j := names.length) (n := n) (by rw [List.getElem?_append_left hjl]; exact hj) (by simp)
    omega
  refine ⟨n, h2, ⟨h.root, by rw [← h.tracks], hnames, ?_, ?_, ?_⟩⟩
  · dsimp only
    rw [h.fos, List.mapIdx_append]
    unfold Disk.openFile
    split <;> rfl
  · intro i k hk
    dsimp only
    rw [lookup_open, h.others n hfresh]
    by_cases hkn : k = n
    · subst hkn
      rw [if_pos rfl]
      rfl
    · rw [if_neg hkn]
      have hil : i < names.length := by
        by_contra hge
        rw [List.getElem?_append_right (by omega)] at hk
        rcases Nat.eq_zero_or_pos (i - names.length) with h0 | h0
        · rw [h0] at hk; simp at hk; exact hkn hk.symm
        · rw [List.getElem?_eq_none (by simp; omega)] at hk; cases hk
      rw [List.getElem?_append_left hil] at hk
      exact h.own i k hk
  · intro k hk
    rw [List.mem_append, List.mem_singleton, not_or] at hk
    dsimp only
    rw [lookup_open, if_neg hk.2]
    exact h.others k hk.1

theorem handleAll_append {o : FileHandler} (a b : List Call) : o.handleAll (a ++ b) = (o.handleAll a >>= fun o' => o'.handleAll b) := by
  induction a generalizing o with
  | nil => rfl
  | cons c a ih =>
    show (o.handle c >>= fun o' => o'.handleAll (a ++ b)) = _
    simp only [ih]
    show _ = ((o.handle c >>= fun o' => o'.handleAll a) >>= _)
    cases o.handle c <;> rfl

theorem newTracks_state {path : List Char} {base : Disk} {us : List AVStream} {ts : List AVStream} {names : List (List Char)} {o o' : FileHandler}
    (h : State path base ts names (fun _ => []) o) (hx : ∀ (i : Nat) u, (ts ++ us)[i]? = some u → u.index = i)
    (hr : o.handleAll (us.map .newTrack) = ok o') :
    ∃ names', State path base (ts ++ us) names' (fun _ => []) o' := by
  induction us generalizing ts names o with
  | nil => cases hr; exact ⟨names, by rw [List.append_nil]; exact h⟩
  | cons u us ih =>
    obtain ⟨o1, h1, hr⟩ := bind_eq_ok.1 hr
    have hx' : ∀ (i : Nat) v, (ts ++ [u])[i]? = some v → v.index = i := by
      intro i v hv
      refine hx i v ?_
      have hl := (List.getElem?_eq_some_iff.1 hv).1
      rw [show ts ++ u :: us = (ts ++ [u]) ++ us by simp, List.getElem?_append_left hl]
      exact hv
    obtain ⟨n, _, hst⟩ := onNewTrack_state h hx' h1
    have hx2 : ∀ (i : Nat) v, (ts ++ [u] ++ us)[i]? = some v → v.index = i := by
      intro i v hv; exact hx i v (by simpa using hv)
    obtain ⟨names', h2⟩ := ih hst hx2 hr
    exact ⟨names', by simpa using h2⟩

theorem writeTo_state {path : List Char} {base : Disk} {ts : List AVStream} {names : List (List Char)} {w : Nat → Bytes} {o : FileHandler}
    (h : State path base ts names w o) (hx : ∀ (i : Nat) u, ts[i]? = some u → u.index = i) {i : Nat} (hi : i < ts.length) (b : Bytes) :
    ∃ o', o.writeTo i b = ok o' ∧ State path base ts names (fun j => if i = j then w j ++ b else w j) o' := by
  rcases names_at h.named i with ⟨h0, _⟩ | ⟨t, n, _, hn, _⟩
  · rw [List.getElem?_eq_none_iff] at h0; omega
  have hfo : o.fos[i]? = some ⟨n, (w i).length⟩ := by rw [h.fos, List.getElem?_mapIdx, hn]; rfl
  have hidx : idxI o.fos (i : Int) = ok ⟨n, (w i).length⟩ := by
    rw [Demuxer.idxI_natCast]
    unfold idx
    rw [hfo]
  have hrun : o.writeTo i b = ok { o with fos := o.fos.set i ⟨n, (w i).length + b.length⟩, disk := (o.disk.write ⟨n, (w i).length⟩ b).2 } := by
    unfold writeTo; rw [hidx]; rfl
  refine ⟨_, hrun, ⟨h.root, h.tracks, h.named, ?_, ?_, ?_⟩⟩
  · dsimp only
    apply List.ext_getElem?
    intro j
    rw [List.getElem?_set, List.getElem?_mapIdx]
    have hl := (List.getElem?_eq_some_iff.1 hfo).1
    by_cases hj : i = j
    · subst hj; rw [if_pos rfl, if_pos hl, hn]; simp
    · rw [if_neg hj, h.fos, List.getElem?_mapIdx]; simp [hj]
  · intro j k hk
    dsimp only
    rw [lookup_write]
    by_cases hkn : k = n
    · subst hkn
      have hij : i = j := names_inj hx h.named hn hk
      subst hij
      rw [if_pos rfl, h.own i k hk, if_pos rfl, Option.map_some]
      simp only [Option.some.injEq, DiskFile.mk.injEq, true_and]
      exact writeAt_next _ _ _
    · have hij : i ≠ j := by rintro rfl; rw [hn] at hk; exact hkn (Option.some.inj hk).symm
      rw [if_neg hkn, if_neg hij]
      exact h.own j k hk
  · intro k hk
    dsimp only
    rw [lookup_write, if_neg, h.others k hk]
    rintro rfl
    exact hk (List.mem_iff_getElem?.2 ⟨i, hn⟩)

theorem State.congr {path : List Char} {base : Disk} {ts : List AVStream} {names : List (List Char)} {w w' : Nat → Bytes} {o : FileHandler}
    (h : State path base ts names w o) (e : w = w') : State path base ts names w' o := e ▸ h

/-- Can this packet be written? -/
def Convertible (t : AVStream) (p : AVPacket) : Prop :=
  NamedType p.mediaType ∧ (p.mediaType = mediaVideo → ∃ r, avccPacket2AnnexB t p = ok r)

theorem onPacket_state {path : List Char} {base : Disk} {ts : List AVStream} {names : List (List Char)} {w : Nat → Bytes} {o : FileHandler}
    (h : State path base ts names w o) (hx : ∀ (i : Nat) u, ts[i]? = some u → u.index = i) {i : Nat} {t : AVStream} (ht : ts[i]? = some t)
    {p : AVPacket} (hp : p.index = i) :
    (Convertible t p → ∃ o', o.onPacket p = ok o') ∧
    ∀ o', o.onPacket p = ok o' → Convertible t p ∧ State path base ts names (fun j => if i = j then w j ++ adds t p else w j) o' := by
  have hi := (List.getElem?_eq_some_iff.1 ht).1
  have hget : o.tracks.get p.index = ok t := by
    unfold TrackManager.get
    rw [h.tracks, hp, Demuxer.idxI_natCast]
    unfold idx
    rw [ht]
  by_cases hnm : NamedType p.mediaType
  · obtain ⟨str, hstr⟩ := (mediaTypeString_ok _).2 hnm
    have hlog : o.logPacket p = ok o := by unfold logPacket; rw [hstr]; rfl
    by_cases hv : p.mediaType = mediaVideo
    · cases hc : avccPacket2AnnexB t p with
      | err m =>
        have : o.onPacket p = err m := by
          unfold onPacket
          rw [hlog, ok_bind, if_pos hv, hget, ok_bind, hc]; rfl
        refine ⟨fun hcv => ?_, fun o' ho' => ?_⟩
        · obtain ⟨r, hr⟩ := hcv.2 hv; rw [hc] at hr; cases hr
        · rw [this] at ho'; cases ho'
      | panic =>
        have : o.onPacket p = panic := by
          unfold onPacket
          rw [hlog, ok_bind, if_pos hv, hget, ok_bind, hc]; rfl
        refine ⟨fun hcv => ?_, fun o' ho' => ?_⟩
        · obtain ⟨r, hr⟩ := hcv.2 hv; rw [hc] at hr; cases hr
        · rw [this] at ho'; cases ho'
      | ok r =>
        obtain ⟨data, p'⟩ := r
        have hel : elementary t p = data := by unfold elementary; rw [if_pos hv, hc]
        have hp' := (C68_repeat t p p' data hc).1
        have hkey : p'.key = p.key ∧ p'.packetType = p.packetType ∧ p'.index = p.index := by rw [hp']; exact ⟨rfl, rfl, rfl⟩
        have hcv : Convertible t p := ⟨hnm, fun _ => ⟨_, hc⟩⟩
        by_cases hd : p.key = true ∧ p.packetType = packAVCC
        · cases hcp : t.codecParameters with
          | some c =>
            have hdb : doubled t p = c.annexBExtraData := by unfold doubled; rw [if_pos ⟨hv, hd⟩, hcp]
            obtain ⟨o1, e1, s1⟩ := writeTo_state h hx hi c.annexBExtraData
            obtain ⟨o2, e2, s2⟩ := writeTo_state s1 hx hi data
            have hrun : o.onPacket p = ok o2 := by
              unfold onPacket
              rw [hlog, ok_bind, if_pos hv, hget, ok_bind, hc, ok_bind]
              dsimp only
              rw [hcp]
              dsimp only
              rw [if_pos (by rw [hkey.1, hkey.2.1]; exact hd), hkey.2.2, hp, e1, ok_bind, e2]
            refine ⟨fun _ => ⟨o2, hrun⟩, fun o' ho' => ⟨hcv, ?_⟩⟩
            rw [hrun] at ho'; cases ho'
            refine s2.congr ?_
            funext j
            unfold adds
            rw [hdb, hel]
            split <;> simp
          | none =>
            have hdb : doubled t p = [] := by unfold doubled; rw [if_pos ⟨hv, hd⟩, hcp]
            obtain ⟨o2, e2, s2⟩ := writeTo_state h hx hi data
            have hrun : o.onPacket p = ok o2 := by
              unfold onPacket
              rw [hlog, ok_bind, if_pos hv, hget, ok_bind, hc, ok_bind]
              dsimp only
              rw [hcp]
              dsimp only
              rw [hkey.2.2, hp, e2]
            refine ⟨fun _ => ⟨o2, hrun⟩, fun o' ho' => ⟨hcv, ?_⟩⟩
            rw [hrun] at ho'; cases ho'
            refine s2.congr ?_
            funext j
            unfold adds
            rw [hdb, hel]; rfl
        · have hdb : doubled t p = [] := by unfold doubled; rw [if_neg (fun e => hd e.2)]
          obtain ⟨o2, e2, s2⟩ := writeTo_state h hx hi data
          have hrun : o.onPacket p = ok o2 := by
            unfold onPacket
            rw [hlog, ok_bind, if_pos hv, hget, ok_bind, hc, ok_bind]
            dsimp only
            cases hcp : t.codecParameters with
            | none => dsimp only; rw [hkey.2.2, hp, e2]
            | some c =>
              dsimp only
              rw [if_neg (by rw [hkey.1, hkey.2.1]; exact hd), hkey.2.2, hp, e2]
          refine ⟨fun _ => ⟨o2, hrun⟩, fun o' ho' => ⟨hcv, ?_⟩⟩
          rw [hrun] at ho'; cases ho'
          refine s2.congr ?_
          funext j
          unfold adds
          rw [hdb, hel]; rfl
    · have hel : elementary t p = p.data := by unfold elementary; rw [if_neg hv]
      have hdb : doubled t p = [] := by unfold doubled; rw [if_neg (fun e => hv e.1)]
      obtain ⟨o2, e2, s2⟩ := writeTo_state h hx hi p.data
      have hrun : o.onPacket p = ok o2 := by
        unfold onPacket
        rw [hlog, ok_bind, if_neg hv, hp, e2]
      refine ⟨fun _ => ⟨o2, hrun⟩, fun o' ho' => ⟨⟨hnm, fun e => absurd e hv⟩, ?_⟩⟩
      rw [hrun] at ho'; cases ho'
      refine s2.congr ?_
      funext j
      unfold adds
      rw [hdb, hel]; rfl
  · refine ⟨fun hcv => absurd hcv.1 hnm, fun o' ho' => ?_⟩
    unfold onPacket logPacket at ho'
    obtain ⟨o1, h1, _⟩ := bind_eq_ok.1 ho'
    obtain ⟨str, hstr, _⟩ := bind_eq_ok.1 h1
    exact absurd ((mediaTypeString_ok _).1 ⟨str, hstr⟩) hnm

/-- What all packets of track `i` add. -/
def total (ts : List AVStream) (ps : List AVPacket) (i : Nat) : Bytes :=
  match ts[i]? with
  | some t => (ofTrack i ps).flatMap (adds t)
  | none => []

theorem total_snoc {ts : List AVStream} {ps : List AVPacket} {p : AVPacket} {i : Nat} {t : AVStream} (ht : ts[i]? = some t) (hp : p.index = i) :
    total ts (ps ++ [p]) = fun j => if i = j then total ts ps j ++ adds t p else total ts ps j := by
  funext j
  unfold total
  rw [ofTrack_append, ofTrack_single]
  by_cases hj : i = j
  · subst hj
    rw [if_pos rfl, if_pos hp, ht]; simp
  · rw [if_neg hj, if_neg (by rw [hp]; exact_mod_cast hj), List.append_nil]

theorem packets_state {path : List Char} {base : Disk} {ts : List AVStream} {names : List (List Char)} {done ps : List AVPacket} {o : FileHandler}
    (h : State path base ts names (total ts done) o) (hx : ∀ (i : Nat) u, ts[i]? = some u → u.index = i)
    (hp : ∀ p ∈ ps, ∃ t ∈ ts, p.index = t.index) :
    ((∀ p ∈ ps, ∀ t ∈ ts, p.index = t.index → Convertible t p) → ∃ o', o.handleAll (ps.map .packet) = ok o') ∧
    ∀ o', o.handleAll (ps.map .packet) = ok o' →
      (∀ p ∈ ps, ∀ t ∈ ts, p.index = t.index → Convertible t p) ∧ State path base ts names (total ts (done ++ ps)) o' := by
  induction ps generalizing done o with
  | nil =>
    refine ⟨fun _ => ⟨o, rfl⟩, fun o' ho' => ⟨by simp, ?_⟩⟩
    cases ho'
    rw [List.append_nil]; exact h
  | cons p ps ih =>
    obtain ⟨t, htm, hpt⟩ := hp p (List.mem_cons_self ..)
    obtain ⟨i, ht⟩ := List.mem_iff_getElem?.1 htm
    have hpi : p.index = i := by rw [hpt]; exact hx i t ht
    have huniq : ∀ u ∈ ts, p.index = u.index → u = t := by
      intro u hu hpu
      obtain ⟨j, hj⟩ := List.mem_iff_getElem?.1 hu
      rw [hx j u hj, hpi] at hpu
      have : i = j := by exact_mod_cast hpu
      subst this
      rw [ht] at hj
      exact (Option.some.inj hj).symm
    obtain ⟨htot, hst⟩ := onPacket_state h hx ht hpi
    have hp' := fun q hq => hp q (List.mem_cons_of_mem _ hq)
    have hrest : ∀ o1, o.onPacket p = ok o1 → State path base ts names (total ts (done ++ [p])) o1 := by
      intro o1 h1
      exact (hst o1 h1).2.congr (total_snoc ht hpi).symm
    constructor
    · intro hcv
      obtain ⟨o1, h1⟩ := htot (hcv p (List.mem_cons_self ..) t htm hpt)
      obtain ⟨o2, h2⟩ := (ih (hrest o1 h1) hp').1 fun q hq => hcv q (List.mem_cons_of_mem _ hq)
      refine ⟨o2, ?_⟩
      show (o.onPacket p >>= fun o' => o'.handleAll (ps.map .packet)) = ok o2
      rw [h1, ok_bind, h2]
    · intro o' ho'
      obtain ⟨o1, h1, h2⟩ := bind_eq_ok.1 (show (o.onPacket p >>= fun o' => o'.handleAll (ps.map .packet)) = ok o' from ho')
      obtain ⟨hcv, hs⟩ := (ih (hrest o1 h1) hp').2 o' h2
      refine ⟨?_, by simpa using hs⟩
      intro q hq u hu hqu
      rcases List.mem_cons.1 hq with rfl | hq
      · rw [huniq u hu hqu]; exact (hst o1 h1).1
      · exact hcv q hq u hu hqu

theorem new_state (path : List Char) (base : Disk) : State path base [] [] (fun _ => []) (FileHandler.new path base) :=
  ⟨rfl, rfl, .nil, rfl, by simp, fun _ _ => rfl⟩

theorem total_nil (ts : List AVStream) : total ts [] = fun _ => [] := by
  funext i; unfold total; split <;> rfl

/-- With named types, all files can be opened. -/
theorem newTracks_ok {o : FileHandler} {us : List AVStream} (h : ∀ u ∈ us, NamedType u.mediaType) : ∃ o', o.handleAll (us.map .newTrack) = ok o' := by
  induction us generalizing o with
  | nil => exact ⟨o, rfl⟩
  | cons u us ih =>
    obtain ⟨str, hstr⟩ := (mediaTypeString_ok _).2 (h u (List.mem_cons_self ..))
    have : ∃ o1, o.onNewTrack u = ok o1 := by
      unfold onNewTrack logNewTrack fileName
      simp only [TrackManager.add]
      rw [if_neg (by simp), hstr]
      exact ⟨_, rfl⟩
    obtain ⟨o1, h1⟩ := this
    obtain ⟨o2, h2⟩ := ih (o := o1) fun v hv => h v (List.mem_cons_of_mem _ hv)
    refine ⟨o2, ?_⟩
    show (o.onNewTrack u >>= fun o' => o'.handleAll (us.map .newTrack)) = ok o2
    rw [h1, ok_bind, h2]

theorem session_state {path : List Char} {disk : Disk} {ts : List AVStream} {ps : List AVPacket} {o : FileHandler} (hs : Session ts ps)
    (hr : (FileHandler.new path disk).handleAll (sessionCalls ts ps) = ok o) :
    ∃ names, State path disk ts names (total ts ps) o ∧ ∀ p ∈ ps, ∀ t ∈ ts, p.index = t.index → Convertible t p := by
  unfold sessionCalls at hr
  rw [handleAll_append] at hr
  obtain ⟨o1, e1, hr⟩ := bind_eq_ok.1 hr
  obtain ⟨names, hst⟩ := newTracks_state (new_state path disk) (by simpa using hs.index) e1
  rw [List.nil_append] at hst
  rw [← total_nil ts] at hst
  obtain ⟨hc, h⟩ := (packets_state hst hs.index hs.packets).2 o hr
  exact ⟨names, by simpa using h, hc⟩

end FileHandler

theorem delivered_toHandler (cs : List Call) : delivered (toHandler cs) = delivered cs := by
  unfold delivered toHandler
  rw [List.filterMap_filter]
  congr 1
  funext c
  cases c <;> rfl

end Avf
