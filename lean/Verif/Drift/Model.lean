import Verif.Base

/-!
# Model of the CPU drift integrator

`bliss/drift_search/kernels/drift_integration_cpu.cpp`, lines 15–161.

`F` is the sample type (`float`), `S` the type of slopes (`double`). The only uses the
kernel makes of a slope `m` are the test `m >= 0` and the conversion `int(round(m * t))`;
they are the parameters `nonneg` and `offAt` (the latter may be undefined, e.g. for a NaN).
-/

namespace Bliss.Drift

/-- `frequency_drift_plane::drift_rate`
(`bliss/core/include/core/frequency_drift_plane.hpp:18-24`). -/
structure Rate (S : Type) where
  /-- `index_in_plane` -/
  indexInPlane : Int
  /-- `drift_rate_slope` -/
  slope : S
  /-- `drift_rate_Hz_per_sec` -/
  hzPerSec : S
  /-- `drift_channels_span` -/
  span : Int
  /-- `desmeared_bins` -/
  desmear : Int
  deriving DecidableEq, Repr

/-- The two float operations of the kernel on slopes: `m >= 0` (line 61) and
`int(std::round(m * t))` (line 57). -/
structure SlopeOps (S : Type) where
  nonneg : S → Bool
  offAt : S → Nat → Outcome Int

/-- The arrays the kernel reads: base pointers with the strides and the start offset of the
view (lines 20-26). The kernel never looks at the views' `offsets()`: the two `...Offset`
fields are part of the argument but no definition below reads them. -/
structure Input (F : Type) where
  spec : Buf F
  /-- sum of `spectrum_grid.offsets()`: where the view starts in its allocation -/
  specOffset : Int := 0
  specStride0 : Int
  specStride1 : Int
  rfi : Buf UInt8
  /-- sum of `rfi_mask.offsets()` -/
  rfiOffset : Int := 0
  rfiStride0 : Int
  rfiStride1 : Int
  /-- `spectrum_grid.size(0)` -/
  timeSteps : Nat
  /-- `spectrum_grid.size(1)` -/
  numChannels : Nat

/-- The arrays the kernel writes: drift plane and the three counters (lines 32-46). -/
structure Acc (F : Type) where
  plane : Buf F
  lowsk : Buf UInt8
  highsk : Buf UInt8
  rolloff : Buf UInt8

/-- The running element offsets of the inner loop (lines 75-82, 124-131). -/
structure Ptrs where
  plane : Int
  spec : Int
  lowsk : Int
  highsk : Int
  rolloff : Int
  rfi : Int

/-- Flag bits (`bliss/core/include/core/flag_values.hpp:9-19`). -/
def flagRolloff : UInt8 := 1
/-- See `flagRolloff`. -/
def flagLowSK : UInt8 := 2
/-- See `flagRolloff`. -/
def flagHighSK : UInt8 := 4

/-- `if (rfi_ptr[..] & flag) counter[p] += 1;` (lines 88-98), 8-bit wrap-around. -/
def bump (flags flag : UInt8) (b : Buf UInt8) (p : Int) : Outcome (Buf UInt8) :=
  if flags &&& flag ≠ 0 then do
    let v ← b.load p
    b.store p (v + 1)
  else .ok b

/-- One iteration of the channel loop (lines 83-103 and, identically, 132-152). The plane and
the counters are fresh dense arrays, so their stride along frequency is 1. -/
def channelBody {F : Type} [Add F] [Div F] [IntCast F] (inp : Input F) (desmear : Int)
    (st : Acc F × Ptrs) : Outcome (Acc F × Ptrs) := do
  let (a, p) := st
  let cur ← a.plane.load p.plane
  let x ← inp.spec.load p.spec
  let plane ← a.plane.store p.plane (cur + x / (desmear : F))
  let flags ← inp.rfi.load p.rfi
  let lowsk ← bump flags flagLowSK a.lowsk p.lowsk
  let highsk ← bump flags flagHighSK a.highsk p.highsk
  let rolloff ← bump flags flagRolloff a.rolloff p.rolloff
  pure ({ plane := plane, lowsk := lowsk, highsk := highsk, rolloff := rolloff },
        { plane := p.plane + 1, spec := p.spec + inp.specStride1, lowsk := p.lowsk + 1,
          highsk := p.highsk + 1, rolloff := p.rolloff + 1, rfi := p.rfi + inp.rfiStride1 })

/-- The trip count of `for (size_t channel = 0; channel < number_channels; ...)` where
`number_channels` is a signed 64-bit value (lines 74, 83): the comparison converts it to
`size_t`, so a negative count becomes a huge one. -/
def tripCount (n : Int) : Nat := if 0 ≤ n then n.toNat else (n + 2 ^ 64).toNat

/-- Lines 74-103 / 123-152: set up the offsets and run the channel loop. -/
def addRange {F : Type} [Add F] [Div F] [IntCast F] (inp : Input F) (desmear : Int)
    (driftIndex t : Nat) (driftStart driftEnd specStart : Int) (a : Acc F) : Outcome (Acc F) := do
  let count := driftEnd - driftStart
  let row := (driftIndex : Int) * inp.numChannels + driftStart
  let p : Ptrs :=
    { plane := row, spec := t * inp.specStride0 + specStart * inp.specStride1,
      lowsk := row, highsk := row, rolloff := row,
      rfi := t * inp.rfiStride0 + specStart * inp.rfiStride1 }
  let (a', _) ← forLoop (tripCount count) (fun _ st => channelBody inp desmear st) (a, p)
  pure a'

/-- One desmear step (lines 60-154); `off` is `freq_offset_at_time`. -/
def desmearBody {F S : Type} [Add F] [Div F] [IntCast F] (ops : SlopeOps S) (inp : Input F)
    (r : Rate S) (driftIndex t : Nat) (off : Int) (k : Nat) (a : Acc F) : Outcome (Acc F) :=
  let n : Int := inp.numChannels
  if ops.nonneg r.slope then
    let channelOffset := off + k
    addRange inp r.desmear driftIndex t 0 (n - channelOffset) channelOffset a
  else
    let channelOffset := off - k
    let driftStart := -r.span
    let specStart := -r.span + channelOffset
    if specStart < 0 then
      addRange inp r.desmear driftIndex t (driftStart - specStart) n (specStart - specStart) a
    else
      addRange inp r.desmear driftIndex t driftStart n specStart a

/-- One time step (lines 56-155). -/
def timeBody {F S : Type} [Add F] [Div F] [IntCast F] (ops : SlopeOps S) (inp : Input F)
    (r : Rate S) (driftIndex : Nat) (t : Nat) (a : Acc F) : Outcome (Acc F) := do
  let off ← ops.offAt r.slope t
  forLoop r.desmear.toNat (fun k a => desmearBody ops inp r driftIndex t off k a) a

/-- One drift (lines 50-156). -/
def driftBody {F S : Type} [Add F] [Div F] [IntCast F] (ops : SlopeOps S) (inp : Input F)
    (r : Rate S) (driftIndex : Nat) (a : Acc F) : Outcome (Acc F) :=
  forLoop inp.timeSteps (fun t a => timeBody ops inp r driftIndex t a) a

/-- Freshly zeroed plane and counters (lines 32-46 and
`bliss/core/include/core/integrate_drifts_options.hpp:34-40`): dense arrays of
`number_drifts * number_channels` elements. -/
def initAcc {F : Type} [Zero F] (numDrifts numChannels : Nat) : Acc F :=
  let n : Int := numDrifts * numChannels
  { plane := Buf.ofFn n (fun _ => 0), lowsk := Buf.ofFn n (fun _ => 0),
    highsk := Buf.ofFn n (fun _ => 0), rolloff := Buf.ofFn n (fun _ => 0) }

/-- One iteration of the drift loop, fetching `drift_rates[drift_index]` (lines 50-51). -/
def rateBody {F S : Type} [Add F] [Div F] [IntCast F] (ops : SlopeOps S) (inp : Input F)
    (rates : List (Rate S)) (i : Nat) (a : Acc F) : Outcome (Acc F) :=
  match rates[i]? with
  | some r => driftBody ops inp r i a
  | none => .ub

/-- `integrate_linear_rounded_bins_cpu` (lines 15-161). The final `drift_plane / time_steps`
(line 159) is the element-wise division by an `int`. -/
def integrateCpu {F S : Type} [Zero F] [Add F] [Div F] [IntCast F] (ops : SlopeOps S)
    (inp : Input F) (rates : List (Rate S)) : Outcome (Acc F) := do
  let a ← forLoop rates.length (rateBody ops inp rates) (initAcc rates.length inp.numChannels)
  pure { a with plane := fun j => (a.plane j).map (fun x => x / ((inp.timeSteps : Int) : F)) }

end Bliss.Drift
