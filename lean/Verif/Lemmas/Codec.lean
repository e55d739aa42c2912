import Verif.Model.Packet
import Verif.Props.Sps
import Verif.Props.Record
import Verif.Props.Nal
/-! # Helper lemmas for codec data -/
namespace Avf
open Go

theorem nbits8_ok {g g' : Golomb} {v : BitVec 64} (hg : g.Ok) (h : Rd.nbits 8 g = ok (v, g')) :
    8 ≤ g.todo.length ∧ g'.Ok ∧ g'.todo = g.todo.drop 8 := by
  have hs := Golomb.C11_readBits g hg 8 (by omega)
  by_cases hl : 8 ≤ g.todo.length
  · obtain ⟨r, g2, e, _, hg', ht⟩ := hs.1 hl
    have h : g.readBits 8 = ok (v, g') := h
    have e : g.readBits 8 = ok (r, g2) := e
    rw [e] at h
    cases h
    exact ⟨hl, hg', ht⟩
  · have h : g.readBits 8 = ok (v, g') := h
    have e : g.readBits 8 = err _ := hs.2 (by omega)
    rw [e] at h
    cases h

/-- A sequence parameter set that parses has its four first bytes. -/
theorem avcParseSPS_four {undef : Int} {data u : Bytes} {r : AvcSps} (hu : removeStartCode data = ok u)
    (h : avcParseSPS undef data = ok r) : 4 ≤ u.length := by
  unfold avcParseSPS at h
  rw [hu, ok_bind] at h
  obtain ⟨⟨s, g⟩, h, _⟩ := bind_eq_ok.1 h
  unfold avcSpsBody at h
  rw [rd_bind] at h
  obtain ⟨⟨_, g1⟩, e1, h⟩ := bind_eq_ok.1 h
  rw [rd_bind] at h
  obtain ⟨⟨_, g2⟩, e2, h⟩ := bind_eq_ok.1 h
  rw [rd_bind] at h
  obtain ⟨⟨_, g3⟩, e3, h⟩ := bind_eq_ok.1 h
  rw [rd_bind] at h
  obtain ⟨⟨_, g4⟩, e4, _⟩ := bind_eq_ok.1 h
  obtain ⟨_, o1, t1⟩ := nbits8_ok (Golomb.ok_ofBytes u) e1
  obtain ⟨_, o2, t2⟩ := nbits8_ok o1 e2
  obtain ⟨_, o3, t3⟩ := nbits8_ok o2 e3
  obtain ⟨l4, _, _⟩ := nbits8_ok o3 e4
  rw [t3, t2, t1, Golomb.todo_ofBytes] at l4
  simp only [List.length_drop, bits_length] at l4
  omega

theorem avcParseSPS_strip {undef : Int} {a b u : Bytes} (ha : removeStartCode a = ok u) (hb : removeStartCode b = ok u) :
    avcParseSPS undef a = avcParseSPS undef b := by
  unfold avcParseSPS; rw [ha, hb]

theorem hevcParseSPS_strip {a b u : Bytes} (ha : removeStartCode a = ok u) (hb : removeStartCode b = ok u) :
    hevcParseSPS a = hevcParseSPS b := by
  unfold hevcParseSPS; rw [ha, hb]

theorem removeStartCode_startCoded (u : Bytes) : removeStartCode (startCoded u) = ok u := removeStartCode_unit (true, u)

theorem removeStartCode_bytes (s : ParamSet) (h : s.Plain) : removeStartCode s.bytes = ok s.unit := by
  have := stripped_sets (ss := [s]) (by simpa using h)
  unfold Stripped at this
  simpa using this

theorem mix_eq (data : List (List Bytes)) : mix data = data.flatten.flatten := by
  have key : ∀ (v : List Bytes) (e : Bytes), v.foldl (· ++ ·) e = e ++ v.flatten := by
    intro v
    induction v with
    | nil => simp
    | cons a v ih => intro e; rw [List.foldl_cons, ih]; simp
  have : ∀ e, data.foldl (fun extra v => v.foldl (· ++ ·) extra) e = e ++ data.flatten.flatten := by
    induction data with
    | nil => simp
    | cons a d ih => intro e; rw [List.foldl_cons, ih, key]; simp
  exact (this []).trans (List.nil_append _)

end Avf
