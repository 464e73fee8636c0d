/-
packages/istanbul-oxide/src/percent.rs, with single precision arithmetic made explicit.
-/
namespace Verif

/-- Round half to even of a non-negative rational to a natural number. -/
def roundHalfEven (q : Rat) : Nat :=
  let n := q.floor.toNat
  let r := q - n
  if r < 1 / 2 then n
  else if 1 / 2 < r then n + 1
  else if n % 2 = 0 then n else n + 1

/-- Binary exponent used for rounding a positive rational below `2^24` to 24 significant bits:
the least `k ≤ fuel` with `q * 2^k ≥ 2^23` (`fuel` when there is none). -/
def scaleExp (q : Rat) : Nat → Nat → Nat
  | 0, k => k
  | fuel + 1, k => if 2 ^ 23 ≤ q * 2 ^ k then k else scaleExp q fuel (k + 1)

/-- IEEE-754 binary32 round-to-nearest-even for rationals `0 ≤ q < 2^24` that are zero or not
subnormal (all values occurring in `percent` for `covered ≤ total`): scale to a 24-bit integer
significand, round half to even, scale back. -/
def roundF32 (q : Rat) : Rat :=
  if q ≤ 0 then 0
  else
    let k := scaleExp q 149 0
    (roundHalfEven (q * 2 ^ k) : Rat) / 2 ^ k

/-- percent.rs:1-8 `percent`. The integer quotient is computed in `u64` (no overflow for `u32`
arguments), converted to `f64` and `f32` (`roundF32`), divided by 10 in `f32`, floored, divided by
100 in `f32`. -/
def percent (covered total : Nat) : Rat :=
  if 0 < total then
    let tmp : Rat := roundF32 ((1000 * 100 * covered / total : Nat) : Rat)
    let tenth : Rat := ((roundF32 (tmp / 10)).floor : Int)
    roundF32 (tenth / 100)
  else 100

end Verif
