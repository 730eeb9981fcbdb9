import Verif.Drift.Model
import Verif.Nd.Model

/-!
# Model of the generic drift integrator

`bliss/drift_search/kernels/drift_integration_bland.cpp`, lines 28–221, on top of the array model
`Verif.Nd.Model`: every `bland::slice`, `/`, `&`, `+` and assignment to a slice below is the
corresponding modelled array operation, applied to strided views in a heap.

Float arrays and byte arrays live in two heaps, one per element type; no operation of the kernel
mixes the two. `junk` is the content of freshly allocated, uninitialised memory.
-/

namespace Bliss.Drift
open Bliss.Nd

/-- The arguments `spectrum_grid` and `rfi_mask` (lines 29-30) and the memory they live in. -/
structure BlandInput (F : Type) where
  heapF : Heap F
  heapU : Heap UInt8
  spec : Arr
  mask : Arr

/-- The memory and the accumulators (lines 38-41). -/
structure BlandState (F : Type) where
  heapF : Heap F
  heapU : Heap UInt8
  plane : Arr
  rolloff : Arr
  lowsk : Arr
  highsk : Arr

/-- The two slice specifications `{0, row, row + 1}, {1, lo, hi}` (e.g. lines 66-68). -/
def rowSpecs (row lo hi : Int) : List SliceSpec :=
  [⟨0, row, row + 1, 1⟩, ⟨1, lo, hi, 1⟩]

/-- `slice = slice + (mask_slice & flag) / flag` (lines 85-90, 92-99, 101-108 and 163-187). -/
def countFlag (flag : UInt8) (junk : Int → UInt8) (h : Heap UInt8) (counter maskSlice : Arr)
    (driftIndex : Nat) (lo hi : Int) : Outcome (Heap UInt8) := do
  let view ← sliceMany counter (rowSpecs driftIndex lo hi)
  let (h1, bits) ← scalarOp (fun x => x &&& flag) h maskSlice junk
  let (h2, ones) ← scalarOp (fun x => x / flag) h1 bits junk
  let (h3, sum) ← binOp (· + ·) h2 view ones junk
  assignSlice id h3 view sum

section
variable {F S : Type} [Add F] [Div F] [IntCast F]

/-- The body shared by both signs (lines 66-125 and 148-203): accumulate the counters, then the
spectrum, on the views of `[driftStart, driftEnd)` and `[specStart, specEnd)`. -/
def blandRange (inp : BlandInput F) (junkF : Int → F) (junkU : Int → UInt8) (desmear : Int)
    (driftIndex t : Nat) (driftStart driftEnd specStart specEnd : Int) (s : BlandState F) :
    Outcome (BlandState F) := do
  let driftSlice ← sliceMany s.plane (rowSpecs driftIndex driftStart driftEnd)
  let specSlice ← sliceMany inp.spec (rowSpecs t specStart specEnd)
  let maskSlice ← sliceMany inp.mask (rowSpecs t specStart specEnd)
  let u1 ← countFlag flagRolloff junkU s.heapU s.rolloff maskSlice driftIndex driftStart driftEnd
  let u2 ← countFlag flagLowSK junkU u1 s.lowsk maskSlice driftIndex driftStart driftEnd
  let u3 ← countFlag flagHighSK junkU u2 s.highsk maskSlice driftIndex driftStart driftEnd
  let (h1, scaled) ← scalarOp (fun x => x / (desmear : F)) s.heapF specSlice junkF
  let (h2, sum) ← binOp (· + ·) h1 driftSlice scaled junkF
  let h3 ← assignSlice id h2 driftSlice sum
  pure { s with heapF := h3, heapU := u3 }

/-- One desmear step (lines 54-204). -/
def blandDesmear (ops : SlopeOps S) (inp : BlandInput F) (junkF : Int → F) (junkU : Int → UInt8)
    (n : Int) (r : Rate S) (driftIndex t : Nat) (off : Int) (k : Nat) (s : BlandState F) :
    Outcome (BlandState F) :=
  if ops.nonneg r.slope then
    let channelOffset := off + k
    blandRange inp junkF junkU r.desmear driftIndex t 0 (n - channelOffset) channelOffset n s
  else
    let channelOffset := off - k
    let specStart := -r.span + channelOffset
    if specStart < 0 then
      blandRange inp junkF junkU r.desmear driftIndex t (-r.span - specStart) n
        (specStart - specStart) (n + channelOffset) s
    else
      blandRange inp junkF junkU r.desmear driftIndex t (-r.span) n specStart (n + channelOffset) s

/-- One time step (lines 51-205). -/
def blandTime (ops : SlopeOps S) (inp : BlandInput F) (junkF : Int → F) (junkU : Int → UInt8)
    (n : Int) (r : Rate S) (driftIndex t : Nat) (s : BlandState F) : Outcome (BlandState F) := do
  let off ← ops.offAt r.slope t
  forLoop r.desmear.toNat (fun k s => blandDesmear ops inp junkF junkU n r driftIndex t off k s) s

/-- One drift (lines 45-206). -/
def blandDrift (ops : SlopeOps S) (inp : BlandInput F) (junkF : Int → F) (junkU : Int → UInt8)
    (T : Nat) (n : Int) (rates : List (Rate S)) (i : Nat) (s : BlandState F) :
    Outcome (BlandState F) :=
  match rates[i]? with
  | some r => forLoop T (fun t s => blandTime ops inp junkF junkU n r i t s) s
  | none => .ub

end

/-- A new array filled with one value: `ndarray(shape, value, dtype)`, and `ndarray(shape)`
followed by `fill` (lines 38-41; `integrate_drifts_options.hpp:34-40`). -/
def allocFilled {V : Type} (v : V) (junk : Int → V) (h : Heap V) (shape : List Int) :
    Outcome (Heap V × Arr) := do
  let (h1, a) := alloc h shape junk
  let h2 ← fill v h1 a
  pure (h2, a)

/-- `integrate_linear_rounded_bins_bland` (lines 28-213). `size(d)` of a dimension the array does
not have throws. The returned state has the plane divided by the number of time steps. -/
def integrateBland {F S : Type} [Zero F] [Add F] [Div F] [IntCast F] (ops : SlopeOps S)
    (junkF : Int → F) (junkU : Int → UInt8) (inp : BlandInput F) (rates : List (Rate S)) :
    Outcome (BlandState F) :=
  match inp.spec.shape with
  | T :: n :: _ => do
    let shape : List Int := [rates.length, n]
    let (hf, plane) ← allocFilled 0 junkF inp.heapF shape
    let (u1, rolloff) ← allocFilled 0 junkU inp.heapU shape
    let (u2, lowsk) ← allocFilled 0 junkU u1 shape
    let (u3, highsk) ← allocFilled 0 junkU u2 shape
    let s ← forLoop rates.length (blandDrift ops inp junkF junkU T.toNat n rates)
      { heapF := hf, heapU := u3, plane := plane, rolloff := rolloff, lowsk := lowsk,
        highsk := highsk }
    let (h', q) ← scalarOp (fun x => x / (T : F)) s.heapF s.plane junkF
    pure { s with heapF := h', plane := q }
  | _ => .throws .invalidArgument

end Bliss.Drift
