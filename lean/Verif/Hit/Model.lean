import Verif.Comp.LocalMaxima

/-!
# Model of hits: search, filtering, comparison

`bliss/drift_search/{protohit_search,hit_search,filter_hits}.cpp`, `bliss/core/include/core/hit.hpp`.

`F` stands for `float` and `D` for `double`; arithmetic on them is uninterpreted (`Arith`,
`FOrd`), so every theorem that does not say otherwise holds for IEEE arithmetic with NaN.
-/

namespace Bliss.Hit

open Bliss.Comp (Coord Grid Protohit Search findThresh findMaxima)

/-- `rfi` = `std::map<flag_values, uint8_t>` (`protohit.hpp:10`): entries in increasing key order. -/
abbrev Counts := List (Nat × Nat)

/-- Keys (`bliss/core/include/core/flag_values.hpp:9-19`). -/
def kRolloff : Nat := 1
def kLowSk : Nat := 2
def kHighSk : Nat := 4

/-- `hit` (`bliss/core/include/core/hit.hpp:12-26`). -/
structure Hit (F D : Type) where
  startFreqIndex : Int
  startFreqMHz : D
  startTime : D
  duration : D
  rateIndex : Int
  driftRate : D
  power : D
  timeSpan : Int
  snr : F
  bandwidth : F
  binwidth : Int
  rfi : Counts
  coarseChannel : Int

/-! ## hit_search -/

/-- The double arithmetic used by `hit_search` and `protohit_search`. -/
structure Arith (F D : Type) where
  toD : F → D
  toF : D → F
  ofInt : Int → D
  add : D → D → D
  mul : D → D → D
  div : D → D → D
  abs : D → D
  sqrt : D → D
  million : D

/-- `frequency_drift_plane::drift_rate` (`frequency_drift_plane.hpp:16-22`), the members read here. -/
structure DriftRate (D : Type) where
  hz : D
  bins : Int

/-- `frequency_drift_plane` (`frequency_drift_plane.hpp:14-60`) with a float32 plane. -/
structure Plane (F D : Type) where
  grid : Grid
  val : Coord → F
  rfi : Coord → Nat × Nat × Nat
  steps : Int
  rates : List (DriftRate D)

/-- The members of `coarse_channel` read by `hit_search`. -/
structure Channel (D : Type) where
  fch1 : D
  foff : D
  tstart : D
  tsamp : D
  number : Int

/-- `hit_search_methods` (`hit_search_options.hpp`): `other` is any further enumerator value. -/
inductive Method
  | connectedComponents
  | localMaxima
  | other
  deriving DecidableEq

/-- `hit_search_options`. -/
structure Options (F : Type) where
  method : Method
  thr : F
  dist : Int

variable {F D : Type}
variable [Sub F] [Div F] [LT F] [DecidableLT F] [OfNat F 0] [OfNat F 2]

/-- The noise of one drift (`protohit_search.cpp:20-23`): the noise power divided by the square
root of the number of samples, in double, rounded to float. -/
def noiseOf (ar : Arith F D) (noisePower : F) (steps : Int) (r : DriftRate D) : F :=
  ar.toF (ar.div (ar.toD noisePower) (ar.sqrt (ar.ofInt (steps * r.bins))))

/-- The arguments that `protohit_search` passes on (`protohit_search.cpp:15-43`). -/
def toSearch (ar : Arith F D) (p : Plane F D) (noisePower floor : F) (o : Options F) : Search F where
  grid := p.grid
  val := p.val
  rfi := p.rfi
  floor := floor
  noise := fun d => match p.rates[d.toNat]? with
    | some r => noiseOf ar noisePower p.steps r
    | none => 0
  thr := o.thr
  dist := o.dist

/-- `protohit_search` (`protohit_search.cpp:15-43`). `noise_per_drift` has one entry per element of
`drift_rate_info`; with fewer entries than drifts the searches index past its end, which is
undefined (reported here without looking whether such a drift is reached). -/
def protohitSearch (ar : Arith F D) (fltMin : F) (p : Plane F D) (noisePower floor : F)
    (o : Options F) : Outcome (List (Protohit F)) :=
  if p.rates.length < p.grid.drifts then .ub
  else match o.method with
    | .connectedComponents => findThresh (toSearch ar p noisePower floor o) fltMin
    | .localMaxima => findMaxima (toSearch ar p noisePower floor o)
    | .other => .ok []

/-- Keys in map order: `filter_rolloff` (1), `low_spectral_kurtosis` (2),
`high_spectral_kurtosis` (4); the triple is (low, high, rolloff). -/
def countsOf : Option (Nat × Nat × Nat) → Counts
  | none => []
  | some (low, high, roll) => [(kRolloff, roll), (kLowSk, low), (kHighSk, high)]

/-- Body of the loop of `hit_search` (`hit_search.cpp:28-55`). Reading an unset noise is reading an
indeterminate value; indexing `drift_rate_info` out of range is undefined. `time_span_steps` is
not assigned: it gets whatever was in memory, here an arbitrary integer `junk` per hit. -/
def toHit (ar : Arith F D) (junk : Coord → Int) (cc : Channel D) (p : Plane F D) (floor : F) (c : Protohit F) :
    Outcome (Hit F D) :=
  match p.rates[c.indexMax.1.toNat]?, c.noise with
  | some r, some noise =>
    let power := c.maxIntegration - floor
    .ok
      { rateIndex := c.indexMax.1
        rfi := countsOf c.rfi
        startFreqIndex := c.indexMax.2
        driftRate := r.hz
        power := ar.toD power
        snr := power / noise
        binwidth := c.binwidth
        bandwidth := ar.toF (ar.mul (ar.ofInt c.binwidth) (ar.abs (ar.mul ar.million cc.foff)))
        startFreqMHz := ar.add cc.fch1 (ar.mul cc.foff (ar.ofInt c.indexCenter.2))
        startTime := ar.mul (ar.mul (ar.mul cc.tstart (ar.ofInt 24)) (ar.ofInt 60)) (ar.ofInt 60)
        duration := ar.mul cc.tsamp (ar.ofInt p.steps)
        timeSpan := junk c.indexMax
        coarseChannel := cc.number }
  | _, _ => .ub

/-- The loop of `hit_search.cpp:27-55`. -/
def toHits (ar : Arith F D) (junk : Coord → Int) (cc : Channel D) (p : Plane F D) (floor : F) :
    List (Protohit F) → Outcome (List (Hit F D))
  | [] => .ok []
  | c :: cs => do
    let h ← toHit ar junk cc p floor c
    let hs ← toHits ar junk cc p floor cs
    pure (h :: hs)

/-- `hit_search` on a coarse channel (`hit_search.cpp:17-58`). -/
def hitSearch (ar : Arith F D) (fltMin : F) (junk : Coord → Int) (cc : Channel D) (p : Plane F D)
    (noisePower floor : F) (o : Options F) : Outcome (List (Hit F D)) := do
  let phs ← protohitSearch ar fltMin p noisePower floor o
  toHits ar junk cc p floor phs

/-! ## filter_hits -/

/-- `std::map::operator[]` used for reading: the value, default-inserted (0) when absent. -/
def mapAt (k : Nat) : Counts → Nat × Counts
  | [] => (0, [(k, 0)])
  | (j, v) :: m =>
    if k < j then (0, (k, 0) :: (j, v) :: m)
    else if k = j then (v, (j, v) :: m)
    else
      let r := mapAt k m
      (r.1, (j, v) :: r.2)

/-- The loop of `filter_hits` (`filter_hits.cpp:13-41`); `tiny` is `fabs(drift - 0) < 1e-6`. Both
`operator[]` reads leave their default entry behind in the hit that is kept. -/
def filterHits (tiny : D → Bool) (filterZeroDrift : Bool) : List (Hit F D) → List (Hit F D)
  | [] => []
  | h :: hs =>
    let r1 := mapAt kRolloff h.rfi
    let r2 := mapAt kLowSk r1.2
    let h' := { h with rfi := r2.2 }
    let remove := decide (r1.1 > 0) || decide (r2.1 > 0) || (filterZeroDrift && tiny h.driftRate)
    if remove then filterHits tiny filterZeroDrift hs
    else h' :: filterHits tiny filterZeroDrift hs

/-- `filter_hits` on a coarse channel (`filter_hits.cpp:43-52`): `hits` is `none` when the channel
has no hits set. -/
def filterChannel (tiny : D → Bool) (filterZeroDrift : Bool) (hits : Option (List (Hit F D))) :
    Outcome (List (Hit F D)) :=
  match hits with
  | some hs => .ok (filterHits tiny filterZeroDrift hs)
  | none => .throws .invalidArgument

/-! ## Comparison -/

/-- `==` and `<` of a built-in type. -/
structure FOrd (α : Type) where
  eq : α → α → Bool
  lt : α → α → Bool

/-- Integers. -/
def FOrd.int : FOrd Int := ⟨fun a b => decide (a = b), fun a b => decide (a < b)⟩

/-- `std::map::operator<`: lexicographic on the entries, which are compared as pairs. -/
def countsLt : Counts → Counts → Bool
  | _, [] => false
  | [], _ :: _ => true
  | (j, v) :: a, (k, w) :: b =>
    if j < k ∨ (j = k ∧ v < w) then true
    else if k < j ∨ (k = j ∧ w < v) then false
    else countsLt a b

/-- `std::map::operator==` and `<`. -/
def FOrd.counts : FOrd Counts := ⟨fun a b => decide (a = b), countsLt⟩

/-- `hit::operator==` (`hit.hpp:31-44`); `coarse_channel_number` takes no part. -/
def Hit.beq (oF : FOrd F) (oD : FOrd D) (a b : Hit F D) : Bool :=
  FOrd.int.eq a.startFreqIndex b.startFreqIndex &&
  oD.eq a.startFreqMHz b.startFreqMHz &&
  oD.eq a.startTime b.startTime &&
  oD.eq a.duration b.duration &&
  FOrd.int.eq a.rateIndex b.rateIndex &&
  oD.eq a.driftRate b.driftRate &&
  oD.eq a.power b.power &&
  FOrd.int.eq a.timeSpan b.timeSpan &&
  oF.eq a.snr b.snr &&
  oF.eq a.bandwidth b.bandwidth &&
  FOrd.int.eq a.binwidth b.binwidth &&
  FOrd.counts.eq a.rfi b.rfi

/-- `hit::operator<` (`hit.hpp:46-83`). -/
def Hit.blt (oF : FOrd F) (oD : FOrd D) (a b : Hit F D) : Bool :=
  if !FOrd.int.eq a.startFreqIndex b.startFreqIndex then
    FOrd.int.lt a.startFreqIndex b.startFreqIndex
  else if !oD.eq a.startFreqMHz b.startFreqMHz then oD.lt a.startFreqMHz b.startFreqMHz
  else if !oD.eq a.startTime b.startTime then oD.lt a.startTime b.startTime
  else if !oD.eq a.duration b.duration then oD.lt a.duration b.duration
  else if !FOrd.int.eq a.rateIndex b.rateIndex then FOrd.int.lt a.rateIndex b.rateIndex
  else if !oD.eq a.driftRate b.driftRate then oD.lt a.driftRate b.driftRate
  else if !oD.eq a.power b.power then oD.lt a.power b.power
  else if !FOrd.int.eq a.timeSpan b.timeSpan then FOrd.int.lt a.timeSpan b.timeSpan
  else if !oF.eq a.snr b.snr then oF.lt a.snr b.snr
  else if !oF.eq a.bandwidth b.bandwidth then oF.lt a.bandwidth b.bandwidth
  else if !FOrd.int.eq a.binwidth b.binwidth then FOrd.int.lt a.binwidth b.binwidth
  else FOrd.counts.lt a.rfi b.rfi

end Bliss.Hit
