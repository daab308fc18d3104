import Verif.Model.Types
/-! # A concrete environment

IEEE 754 arithmetic (round to nearest even) on bit patterns, written with exact integers, so that the
golden tests and the non-vacuity examples can be evaluated by the kernel. No theorem about the code
depends on this file; theorems quantify over `Env`. -/

namespace TsFile.SoftFloat

/-- A binary format: mantissa bits without the hidden one, exponent bits. -/
structure Fmt where
  mant : Nat
  expo : Nat

/-- binary64 -/
def f64 : Fmt := ⟨52, 11⟩
/-- binary32 -/
def f32 : Fmt := ⟨23, 8⟩

/-- The exponent of the unit in the last place of subnormal numbers. -/
def Fmt.emin (f : Fmt) : Int := 2 - (2 ^ (f.expo - 1) : Nat) - f.mant

/-- Round `num / den * 2 ^ e` (positive) to the format; the bit pattern without sign. -/
def roundRat (f : Fmt) (num den : Nat) (e : Int) : Nat :=
  if num = 0 then 0 else
  -- first guess of the exponent of the last place, then one correction
  let l : Int := (Nat.log2 num : Int) - (Nat.log2 den : Int)
  let quot (s : Int) : Nat × Bool × Bool :=
    -- floor, remainder ≥ half, remainder = half for num/den * 2^(-s)
    let n := if s ≤ 0 then num * 2 ^ s.natAbs else num
    let d := if s ≤ 0 then den else den * 2 ^ s.natAbs
    let r := n % d
    (n / d, decide (2 * r ≥ d), decide (2 * r = d))
  let s0 : Int := l - f.mant
  let s0 := if (quot s0).1 < 2 ^ f.mant then s0 - 1 else s0
  let s := if s0 + e < f.emin then f.emin - e else s0
  let (q, up, tie) := quot s
  let q := if up && !(tie && q % 2 = 0) then q + 1 else q
  if q < 2 ^ f.mant then q
  else
    let ex := s + e - f.emin + 1
    let bits := ex.toNat * 2 ^ f.mant + (q - 2 ^ f.mant)
    let inf := (2 ^ f.expo - 1) * 2 ^ f.mant
    if bits ≥ inf then inf else bits

/-- Sign, integer mantissa, exponent of a finite pattern. -/
def decode (f : Fmt) (x : Nat) : Bool × Nat × Int :=
  let sign := decide (x / 2 ^ (f.mant + f.expo) % 2 = 1)
  let ex := x / 2 ^ f.mant % 2 ^ f.expo
  let m := x % 2 ^ f.mant
  if ex = 0 then (sign, m, f.emin) else (sign, m + 2 ^ f.mant, f.emin + (ex : Int) - 1)

/-- Infinity or NaN. -/
def special (f : Fmt) (x : Nat) : Bool := decide (x / 2 ^ f.mant % 2 ^ f.expo = 2 ^ f.expo - 1)
/-- NaN. -/
def isNaN (f : Fmt) (x : Nat) : Bool := special f x && decide (x % 2 ^ f.mant ≠ 0)

/-- `f64 + f64`. -/
def add64 (a b : W64) : W64 :=
  let x := a.toNat
  let y := b.toNat
  let nan : W64 := 0x7ff8000000000000#64
  if isNaN f64 x || isNaN f64 y then nan
  else if special f64 x then (if special f64 y && decide (x ≠ y) then nan else a)
  else if special f64 y then b
  else
    let (sx, mx, ex) := decode f64 x
    let (sy, my, ey) := decode f64 y
    let e := min ex ey
    let vx : Int := (if sx then -1 else 1) * ((mx * 2 ^ (ex - e).toNat : Nat) : Int)
    let vy : Int := (if sy then -1 else 1) * ((my * 2 ^ (ey - e).toNat : Nat) : Int)
    let v := vx + vy
    if v = 0 then (if sx && sy then BitVec.ofNat 64 (2 ^ 63) else 0)
    else BitVec.ofNat 64 ((if v < 0 then 2 ^ 63 else 0) + roundRat f64 v.natAbs 1 e)

/-- `i64 as f64`. -/
def ofI64 (a : W64) : W64 :=
  let v := a.toInt
  BitVec.ofNat 64 ((if v < 0 then 2 ^ 63 else 0) + roundRat f64 v.natAbs 1 0)

/-- `f32 as f64`. -/
def ofF32 (a : W32) : W64 :=
  let x := a.toNat
  let s := (x / 2 ^ 31) * 2 ^ 63
  if isNaN f32 x then 0x7ff8000000000000#64
  else if special f32 x then BitVec.ofNat 64 (s + 0x7ff0000000000000)
  else
    let (_, m, e) := decode f32 x
    BitVec.ofNat 64 (s + roundRat f64 m 1 e)

/-- `((65536 as f32) / (size as f32) * (points as f32)) as u32` for `size > 0`. -/
def nextCheck (size points : Nat) : Nat :=
  let s := decode f32 (roundRat f32 size 1 0)
  let p := decode f32 (roundRat f32 points 1 0)
  let q := decode f32 (roundRat f32 65536 s.2.1 (-s.2.2))
  let r := decode f32 (roundRat f32 (q.2.1 * p.2.1) 1 (q.2.2 + p.2.2))
  min (if r.2.2 ≥ 0 then r.2.1 * 2 ^ r.2.2.toNat else r.2.1 / 2 ^ r.2.2.natAbs) (2 ^ 32 - 1)

/-- `(-n as f64 * 0.05.ln() / ln2 / ln2) as i32 + 1`: the doubles nearest to `-ln 0.05` and `ln 2` are
`0x4007f7427b73e391` and `0x3fe62e42fefa39ef`. -/
def bloomSize (n : Nat) : Nat :=
  let a := decode f64 0x4007f7427b73e391
  let l := decode f64 0x3fe62e42fefa39ef
  let m := decode f64 (roundRat f64 (n * a.2.1) 1 a.2.2)
  let q := decode f64 (roundRat f64 m.2.1 l.2.1 (m.2.2 - l.2.2))
  let q := decode f64 (roundRat f64 q.2.1 l.2.1 (q.2.2 - l.2.2))
  (if q.2.2 ≥ 0 then q.2.1 * 2 ^ q.2.2.toNat else q.2.1 / 2 ^ q.2.2.natAbs) + 1

end TsFile.SoftFloat

namespace TsFile

/-- The standard environment with a given compressor; `HashMap` iterates in insertion order. -/
def Env.std (snappy : Bytes → Option Bytes := fun b => some b) : Env :=
  { f64Add := SoftFloat.add64, i64ToF64 := SoftFloat.ofI64, f32ToF64 := SoftFloat.ofF32, snappy,
    nextCheck := SoftFloat.nextCheck, bloomSize := SoftFloat.bloomSize, bloomHashes := 5,
    hashOrder := id }

/-- The UTF-8 bytes of an ASCII literal. -/
def str (s : String) : Bytes := s.toList.map (fun c => UInt8.ofNat c.toNat)

end TsFile
