import Verif.Model.Nal
/-!
# The steps that the start code functions take

The functions of Model/Nal once more, with a counter: each round of a loop is one step, in `AnnexB2AVCC` also each byte that is copied.
Besides `ParseNalUnits`.
-/
namespace Avf
open Go

/-- One step more. -/
def tick {α : Type} (r : α × Nat) : α × Nat := (r.1, r.2 + 1)

/-- The loop of `FindStartCode` (/repo/avc/util.go:19-30). -/
def scanStartC (p : Bytes) (i : Nat) : Go Nat × Nat :=
  if _h : i < p.length then
    match idx p i with
    | .ok a =>
      if a > 1 then tick (scanStartC p (i + 3))
      else
        match idx p (i - 1) with
        | .ok b =>
          if b ≠ 0 then tick (scanStartC p (i + 2))
          else
            match idx p (i - 2) with
            | .ok c => if c ||| (a - 1) ≠ 0 then tick (scanStartC p (i + 1)) else (ok (i + 1), 1)
            | .err e => (.err e, 1)
            | .panic => (.panic, 1)
        | .err e => (.err e, 1)
        | .panic => (.panic, 1)
    | .err e => (.err e, 1)
    | .panic => (.panic, 1)
  else (ok i, 0)
termination_by p.length - i

/-- `FindStartCode` (/repo/avc/util.go:15-43). -/
def findStartCodeC (p : Bytes) : Go (Option (Nat × Nat)) × Nat :=
  let r := scanStartC p 2
  (r.1 >>= fun i =>
    if i < p.length then
      if i > 3 then do
        let z ← idx p (i - 4)
        if z = 0 then return some (i, 4) else return some (i, 3)
      else return some (i, 3)
    else return none, r.2)

/-- `FindStartCode2` (/repo/avc/util.go:58-65). -/
def findStartCode2C (p : Bytes) : Go (Option Nat) × Nat :=
  let r := findStartCodeC p
  (r.1 >>= fun
    | none => return none
    | some (i, n) => return some (i - n), r.2)

/-- `avc.IsKeyFrame` (/repo/avc/util.go:67-88) from `index` on, at most `fuel` rounds; `p` is `p[index:]`. -/
def avcIsKeyFrameC : Nat → Bytes → Go Bool × Nat
  | 0, _ => (.panic, 0)
  | fuel + 1, p =>
    let r := findStartCodeC p
    match r.1 with
    | .ok none => (ok false, r.2 + 1)
    | .ok (some (n, _)) =>
      match p[n]? with
      | some state =>
        let t := state &&& 0x1F
        if t = 6 ∨ t = 9 ∨ t = 8 ∨ t = 7 then
          let q := avcIsKeyFrameC fuel (p.drop n)
          (q.1, r.2 + 1 + q.2)
        else if t = 5 then (ok true, r.2 + 1)
        else (ok false, r.2 + 1)
      | none => (.panic, r.2 + 1)
    | .err e => (.err e, r.2 + 1)
    | .panic => (.panic, r.2 + 1)

/-- `hevc.IsKeyFrame` (/repo/hevc/util.go:120-145), at most `fuel` rounds. -/
def hevcIsKeyFrameC : Nat → Bytes → Go Bool × Nat
  | 0, _ => (.panic, 0)
  | fuel + 1, p =>
    let r := findStartCodeC p
    match r.1 with
    | .ok none => (ok false, r.2 + 1)
    | .ok (some (n, _)) =>
      match p[n]? with
      | some b =>
        let t := b >>> 1 &&& 0x3F
        if 16 ≤ t ∧ t ≤ 23 then (ok true, r.2 + 1)
        else if t = 33 ∨ t = 34 ∨ t = 32 ∨ t = 39 ∨ t = 40 ∨ t = 35 then
          let q := hevcIsKeyFrameC fuel (p.drop n)
          (q.1, r.2 + 1 + q.2)
        else (ok false, r.2 + 1)
      | none => (.panic, r.2 + 1)
    | .err e => (.err e, r.2 + 1)
    | .panic => (.panic, r.2 + 1)

/-- `SplitNalU` (/repo/avc/util.go:301-312) on `data[offset:]`, at most `fuel` rounds. -/
def splitNalUC : Nat → Bytes → Go (List Bytes) × Nat
  | 0, _ => (.panic, 0)
  | fuel + 1, p =>
    if 3 ≤ p.length then
      let r := findStartCode2C (p.drop 3)
      match r.1 with
      | .ok none => (ok [p], r.2 + 1)
      | .ok (some n) =>
        match slice p 0 (n + 3) with
        | .ok nal =>
          let q := splitNalUC fuel (p.drop (n + 3))
          (q.1 >>= fun rest => ok (nal :: rest), r.2 + 1 + q.2)
        | .err e => (.err e, r.2 + 1)
        | .panic => (.panic, r.2 + 1)
      | .err e => (.err e, r.2 + 1)
      | .panic => (.panic, r.2 + 1)
    else (.panic, 1)

/-- The inner loop of `AnnexB2AVCC` that skips zeros (/repo/avc/util.go:194-196). -/
def skipZerosC : Bytes → Bytes × Nat
  | [] => ([], 0)
  | b :: bs => if b = 0 then tick (skipZerosC bs) else (b :: bs, 0)

/-- The outer loop of `AnnexB2AVCC` (/repo/avc/util.go:192-220), at most `fuel` rounds. -/
def annexB2AVCCLoopC : Nat → Bytes → Bytes → Nat → Go (Nat × Bytes) × Nat
  | 0, _, _, _ => (.panic, 0)
  | fuel + 1, dst, rest, size =>
    if rest.length = 0 then (ok (size, dst), 1)
    else
      let s := skipZerosC rest
      let p := s.1
      if p.length = 0 then (ok (size, dst), 1 + s.2)
      else
        let r := findStartCodeC p
        match r.1 with
        | .ok none =>
          ((if size ≤ dst.length then putAt dst size (be32 (BitVec.ofNat 32 p.length)) else panic : Go Bytes) >>= fun dst =>
            slice p 0 p.length >>= fun bytes => copyAt dst (size + 4) bytes >>= fun dst => ok (size + 4 + p.length, dst),
            1 + s.2 + r.2 + p.length)
        | .ok (some (nalEnd, n)) =>
          let nalSize := if nalEnd - n = 0 then 1 else nalEnd - n
          match (if size ≤ dst.length then putAt dst size (be32 (BitVec.ofNat 32 nalSize)) else panic : Go Bytes) >>= fun dst =>
            slice p 0 nalSize >>= fun bytes => copyAt dst (size + 4) bytes with
          | .ok dst =>
            let q := annexB2AVCCLoopC fuel dst (p.drop nalEnd) (size + 4 + nalSize)
            (q.1, 1 + s.2 + r.2 + nalSize + q.2)
          | .err e => (.err e, 1 + s.2 + r.2 + nalSize)
          | .panic => (.panic, 1 + s.2 + r.2 + nalSize)
        | .err e => (.err e, 1 + s.2 + r.2)
        | .panic => (.panic, 1 + s.2 + r.2)

/-- `AnnexB2AVCC` (/repo/avc/util.go:183-223). -/
def annexB2AVCCC (dst annexB : Bytes) : Go (Nat × Bytes) × Nat :=
  let r := findStartCodeC annexB
  match r.1 with
  | .ok none => (ok (0, dst), r.2)
  | .ok (some (nalStart, _)) =>
    let q := annexB2AVCCLoopC (annexB.length + 1) dst (annexB.drop nalStart) 0
    (q.1, r.2 + q.2)
  | .err e => (.err e, r.2)
  | .panic => (.panic, r.2)

/-- `n` rounds of `ParseNalUnits` (/repo/avc/util.go:90-100); `ok ()`: it is still running. The loop has no exit and changes nothing;
`break` leaves only the `switch`. -/
def parseNalUnitsRounds : Nat → Bytes → Go Unit
  | 0, _ => ok ()
  | n + 1, p => do
    match ← findStartCode p with
    | none => panic
    | some (index, _) => do
      let _ ← idx p index
      parseNalUnitsRounds n p

end Avf
