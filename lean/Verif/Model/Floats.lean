import Verif.Model.Time
import Mathlib.Data.Int.Log

/-!
# dream/time.py in floating point arithmetic

Floats are rational numbers; `fl` rounds a rational number to a float. Every operation of Python on
floats, and every number a user types, is the exact one followed by `fl`.
-/

namespace Dream

/-- IEEE 754 double precision, to nearest, ties to even. Overflow and underflow are not modelled. -/
def double (x : ℚ) : ℚ :=
  if x = 0 then 0
  else (pyRound (x / 2 ^ (Int.log 2 |x| - 52)) : ℚ) * 2 ^ (Int.log 2 |x| - 52)

/-- A timer with interval `(s, e)` and step `dt` as typed by the user (dream/time.py:19-34, 59-61). -/
def Timer.typed (fl : ℚ → ℚ) (s e dt : ℚ) : Timer :=
  { start := fl s, stop := fl e, step := fl dt, digit := setDigit (fl dt), t := 0 }

/-- `Timer.start` (dream/time.py:40-49) with the operations on floats as they are written there; the
integer product `stride*i` is exact and converted when it is multiplied by the step. Rounding to
`digit` decimals gives the float nearest to the rounded decimal number. -/
def Timer.runFl (fl : ℚ → ℚ) (tm : Timer) (includeStart : Bool) (stride : ℕ) :
    Except PyErr (List (ℚ × ℚ)) :=
  if fl (fl stride * tm.step) = 0 then .error .zeroDivision
  else
    let N := pyRound (fl (fl (tm.stop - tm.start) / fl (fl stride * tm.step))) + 1
    .ok ((pyRange (1 - includeStart.toNat) N).map fun (i : ℕ) =>
      let t := fl (tm.start + fl (fl (stride * i : ℕ) * tm.step))
      (t, fl (pyRoundDigits t tm.digit)))

end Dream
