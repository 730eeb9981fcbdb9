import Verif.Drift.Model

/-!
# Specification of drift integration

Which samples of a time/frequency grid contribute to one cell of the drift plane. Nothing
here refers to buffers, strides or loop structure.
-/

namespace Bliss.Drift

/-- The channel that time step with offset `off` and desmear bin `k` contributes to the cell
that starts at channel `c`, or `none` when the sample is cut off at a band edge.

* Upward drifts look at `c + off + k` and drop samples above the last channel.
* Downward drifts look at `c + off - k`, drop samples below channel 0, and do not fill the
  first `-span` cells at all. -/
def pathChannel (numChannels : Nat) (up : Bool) (span : Int) (off : Int) (k : Nat) (c : Int) :
    Option Int :=
  if up then
    if c + off + k < numChannels then some (c + off + k) else none
  else
    if -span ≤ c ∧ 0 ≤ c + off - k then some (c + off - k) else none

/-- All (time, channel) samples on the path of cell `c`, in time order then desmear order. -/
def path (numChannels T : Nat) (up : Bool) (span : Int) (desmear : Nat) (off : Nat → Int)
    (c : Int) : List (Nat × Int) :=
  (List.range T).flatMap fun t =>
    (List.range desmear).filterMap fun k =>
      (pathChannel numChannels up span (off t) k c).map fun ch => (t, ch)

/-- Sum of `x / desmear` along the path, from left to right starting at 0. -/
def pathSum {F : Type} [Zero F] [Add F] [Div F] [IntCast F] (grid : Nat → Int → F)
    (desmear : Int) (p : List (Nat × Int)) : F :=
  p.foldl (fun acc s => acc + grid s.1 s.2 / (desmear : F)) 0

/-- Number of samples on the path whose mask has the bit `flag`. -/
def pathFlags (mask : Nat → Int → UInt8) (flag : UInt8) (p : List (Nat × Int)) : Nat :=
  p.countP (fun s => mask s.1 s.2 &&& flag ≠ 0)

/-- The rate's path stays within `numChannels` channels: an upward drift never moves its last
desmear bin past the band, a downward drift never starts or reaches past it. -/
def Fits (numChannels T : Nat) (up : Bool) (span : Int) (desmear : Int) (off : Nat → Int) : Prop :=
  if up then ∀ t < T, 0 ≤ off t ∧ off t + desmear - 1 ≤ numChannels
  else 0 ≤ -span ∧ -span ≤ numChannels ∧
    ∀ t < T, off t ≤ 0 ∧ -off t + desmear - 1 ≤ numChannels

/-- The (possibly sliced) views of `inp` hold the grid of samples and the grid of flags. -/
structure Holds {F : Type} (inp : Input F) (grid : Nat → Int → F) (mask : Nat → Int → UInt8) :
    Prop where
  spec : ∀ (t : Nat) (c : Int), t < inp.timeSteps → 0 ≤ c → c < inp.numChannels →
    inp.spec (inp.specOffset + t * inp.specStride0 + c * inp.specStride1) = some (grid t c)
  rfi : ∀ (t : Nat) (c : Int), t < inp.timeSteps → 0 ≤ c → c < inp.numChannels →
    inp.rfi (inp.rfiOffset + t * inp.rfiStride0 + c * inp.rfiStride1) = some (mask t c)

end Bliss.Drift
