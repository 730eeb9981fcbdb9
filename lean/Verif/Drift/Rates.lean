import Verif.Drift.Props
import Verif.Float.Rounding

/-!
# Model of `compute_drifts` and `integrate_drifts`

`bliss/drift_search/integrate_drifts.cpp`, lines 16–74, and the slope arithmetic of the
integrators (`kernels/drift_integration_cpu.cpp:52-61`).

Floats are rationals, infinities and NaN; every `float` operation rounds to 24 bits and every
`double` operation to 53 bits with an arbitrary rounding (see `Verif.Float.Rounding`). The exponent
range is not bounded: overflow to infinity and underflow are not modelled. Signed zeros are not
distinguished (the code divides 0 by a positive number only, and compares with `>=`).
-/

namespace Bliss.Drift

open Bliss.Float

/-- A floating-point number: finite, infinite (`true` = positive) or NaN. -/
inductive Fl
  | fin (q : ℚ)
  | inf (positive : Bool)
  | nan
  deriving DecidableEq

/-- `float(n)` for an integer. -/
def Fl.ofInt (R : Rounding 24) (n : Int) : Fl := .fin (R.r n)

/-- `a / b` in `float` for finite `a`, `b`: division by zero gives an infinity or NaN. -/
def Fl.divF (R : Rounding 24) : Fl → Fl → Fl
  | .fin a, .fin b =>
    if b = 0 then (if a = 0 then .nan else .inf (decide (0 < a))) else .fin (R.r (a / b))
  | _, _ => .nan

/-- `int(x)` of an integral finite `x`; undefined for NaN, infinities and values outside `int`. -/
def toInt32 (n : Int) : Outcome Int :=
  if -(2 ^ 31) ≤ n ∧ n < 2 ^ 31 then .ok n else .ub

/-- `int desmear_binwidth = 1; if (options.desmear) desmear_binwidth = std::max(1.0F,
std::round(std::abs(m)));` (`integrate_drifts.cpp:36-41`). `std::max(1.0F, NaN)` is `1.0F`;
converting an infinity to `int` is undefined. -/
def desmearBins (desmear : Bool) (m : Fl) : Outcome Int :=
  if desmear then
    match m with
    | .fin q => toInt32 (max 1 (roundAway |q|))
    | .inf _ => .ub
    | .nan => .ok 1
  else .ok 1

/-- The options of `integrate_drifts` that `compute_drifts` reads
(`core/integrate_drifts_options.hpp:11-24`). -/
structure RateOptions where
  desmear : Bool := true
  low : Int := -64
  high : Int := 64
  step : Int := 1

/-- One iteration of the loop of `compute_drifts` (`integrate_drifts.cpp:23-44`). `hz` stands for
`m * foff * 1e6 / tsamp` (line 33). Simplified: the narrowing of the span to `int` is the
identity. -/
def mkRate (R : Rounding 24) (hz : Fl → Fl) (timeSteps : Nat) (o : RateOptions) (i : Nat) :
    Outcome (Rate Fl) := do
  let d := o.low + i * o.step
  let m := (Fl.ofInt R d).divF R (Fl.ofInt R ((timeSteps : Int) - 1))
  let w ← desmearBins o.desmear m
  pure { indexInPlane := i, slope := m, hzPerSec := hz m, span := d, desmear := w }

/-- The first `n` rates, in order. -/
def mkRates (R : Rounding 24) (hz : Fl → Fl) (timeSteps : Nat) (o : RateOptions) :
    Nat → Outcome (List (Rate Fl))
  | 0 => .ok []
  | n + 1 => do
    let rs ← mkRates R hz timeSteps o n
    let r ← mkRate R hz timeSteps o n
    pure (rs ++ [r])

/-- `compute_drifts` (`integrate_drifts.cpp:16-48`): the number of drifts is the truncated
quotient; a zero step divides by zero, a negative number makes `reserve` throw. -/
def computeDrifts (R : Rounding 24) (hz : Fl → Fl) (timeSteps : Nat) (o : RateOptions) :
    Outcome (List (Rate Fl)) :=
  if o.step = 0 then .ub
  else
    let n := (o.high - o.low).tdiv o.step
    if n < 0 then .throws .lengthError else mkRates R hz timeSteps o n.toNat

/-- The slope arithmetic of the integrators: `m >= 0` and `int(std::round(m * t))`
(`drift_integration_cpu.cpp:57,61`). The CPU integrator computes in `double`: there `p` is 53. -/
def flOps {p : Nat} (R : Rounding p) : SlopeOps Fl where
  nonneg
    | .fin q => decide (0 ≤ q)
    | .inf s => s
    | .nan => false
  offAt m t :=
    match m with
    | .fin q => toInt32 (roundAway (R.r (q * t)))
    | _ => .ub

/-- `integrate_drifts` on a CPU coarse channel (`integrate_drifts.cpp:51-74`): computes the drifts,
prints the first and the last of them (undefined when there are none) and integrates. Simplified: the
number of spectra is that of the array; the code asks the channel's `ntsteps`. -/
def integrateDrifts {F : Type} [Zero F] [Add F] [Div F] [IntCast F] (R24 : Rounding 24)
    (R53 : Rounding 53) (hz : Fl → Fl) (inp : Input F) (o : RateOptions) :
    Outcome (Acc F × List (Rate Fl)) := do
  let rates ← computeDrifts R24 hz inp.timeSteps o
  match rates with
  | [] => .ub
  | _ :: _ => do
    let a ← integrateCpu (flOps R53) inp rates
    pure (a, rates)

end Bliss.Drift
