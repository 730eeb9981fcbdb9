import Verif.Base

/-!
# Model of the component searches (`bliss/drift_search/kernels/connected_components_cpu.cpp`)

Simplifications:
* a grid is accessed by coordinate `(drift_index, frequency_channel)`. The C++ computes
  `drift * strides[0] + freq * strides[1]`; here an access outside the grid is undefined behaviour
  and distinct coordinates are distinct cells. This is what `C43_dense_layout` and `C50_unary_new`
  (`Verif/Nd/Props.lean`) establish for the freshly created arrays involved; for the drift plane
  it holds because it is created by the integrator;
* the `while (!queue.empty())` loops get a step budget (`fuel`). Running out of it is reported as
  undefined behaviour, and the theorems show that it never happens, i.e. the loops terminate;
* `float` is an arbitrary type `F` with uninterpreted `-`, `/` and `<`; what is needed of them is a
  hypothesis of each theorem.
-/

namespace Bliss.Comp

/-- `freq_drift_coord` (`bliss/core/include/core/protohit.hpp:12-15`): (drift index, channel). -/
abbrev Coord := Int × Int

/-- Size of a grid: (`shape[0]`, `shape[1]`). -/
structure Grid where
  drifts : Nat
  chans : Nat

/-- In bounds, as tested in `connected_components_cpu.cpp:58-59,179-180`. -/
def Grid.has (g : Grid) (c : Coord) : Prop :=
  0 ≤ c.1 ∧ c.1 < g.drifts ∧ 0 ≤ c.2 ∧ c.2 < g.chans

instance (g : Grid) (c : Coord) : Decidable (g.has c) := by unfold Grid.has; infer_instance

/-- Read a cell; undefined outside the grid. -/
def Grid.read {α : Type} (g : Grid) (data : Coord → α) (c : Coord) : Outcome α :=
  if g.has c then .ok (data c) else .ub

/-- Overwrite one cell. -/
def put {α : Type} (data : Coord → α) (c : Coord) (v : α) : Coord → α :=
  fun x => if x = c then v else data x

/-- Advance of the raster scan (`connected_components_cpu.cpp:73-76,215-218`). -/
def Grid.next (g : Grid) (c : Coord) : Coord :=
  if c.2 + 1 = g.chans then (c.1 + 1, 0) else (c.1, c.2 + 1)

/-- Component-wise sum. -/
def shift (c o : Coord) : Coord := (c.1 + o.1, c.2 + o.2)

/-! ## Binary mask -/

/-- The loop of lines 40-68: `data` is the copy of the mask (uint8), `locs` is
`this_component.locations`. -/
def binaryWhile (g : Grid) (nbh : List Coord) :
    Nat → (Coord → Nat) → List Coord → List Coord → Outcome ((Coord → Nat) × List Coord)
  | _, data, [], locs => .ok (data, locs)
  | 0, _, _ :: _, _ => .ub
  | fuel + 1, data, c :: q, locs => do
    let v ← g.read data c
    if v > 0 then
      binaryWhile g nbh fuel (put data c 0)
        (q ++ (nbh.map (shift c)).filter (fun x => decide (g.has x))) (locs ++ [c])
    else
      binaryWhile g nbh fuel data q locs

/-- The raster scan of lines 32-77. -/
def binaryScan (g : Grid) (nbh : List Coord) :
    Nat → Coord → (Coord → Nat) → List (List Coord) → Outcome (List (List Coord))
  | 0, _, _, comps => .ok comps
  | n + 1, c, data, comps => do
    let v ← g.read data c
    if v > 0 then do
      let (data', locs) ← binaryWhile g nbh (1 + g.drifts * g.chans * nbh.length) data [c] []
      binaryScan g nbh n (g.next c) data' (comps ++ [locs])
    else
      binaryScan g nbh n (g.next c) data comps

/-- `find_components_in_binary_mask_cpu` (lines 14-79): only `locations` of a component is ever
set. The mask is copied first (line 17), so the caller's array is not an input to the loop. -/
def findBinary (g : Grid) (mask : Coord → Nat) (nbh : List Coord) : Outcome (List (List Coord)) :=
  binaryScan g nbh (g.drifts * g.chans) (0, 0) mask []

/-! ## Above threshold -/

variable {F : Type}

/-- `protohit` (`bliss/core/include/core/protohit.hpp:17-26`). `noise` and `rfi` are `none` until
assigned; `rfi` holds the counts (low SK, high SK, filter rolloff). -/
structure Protohit (F : Type) where
  indexMax : Coord
  indexCenter : Coord
  snr : F
  maxIntegration : F
  noise : Option F
  binwidth : Int
  locations : List Coord
  rfi : Option (Nat × Nat × Nat)

/-- Arguments of the search: drift plane, integrated RFI counters, noise floor, noise per drift
(one entry per drift, as `protohit_search.cpp:18-24` builds it), threshold, neighbour distance. -/
structure Search (F : Type) where
  grid : Grid
  val : Coord → F
  rfi : Coord → Nat × Nat × Nat
  floor : F
  noise : Int → F
  thr : F
  dist : Int

/-- `int` range `[a, b)` in increasing order. -/
def intRange (a b : Int) : List Int := (List.range (b - a).toNat).map (fun k : Nat => a + (k : Int))

/-- The neighbour offsets of lines 171-172, as (drift, frequency). -/
def l1Offsets (d : Int) : List Coord :=
  (intRange (-d) d).flatMap fun f => (intRange (-d + f.natAbs) (d - f.natAbs)).map fun dr => (dr, f)

section
variable [Sub F] [Div F] [LT F] [DecidableLT F] [OfNat F 0] [OfNat F 2]

/-- `(value - noise_floor) / noise[drift]` (lines 117-118, 142-144). -/
def Search.snr (s : Search F) (c : Coord) : F := (s.val c - s.floor) / s.noise c.1

/-- Update of the running peak (lines 148-166). The RFI counters are read at `seed`
(`curr_coord`), the cell where the cluster was started. -/
def Search.track (s : Search F) (seed : Coord) (p : Protohit F) (c : Coord) : Protohit F :=
  if p.snr < s.snr c then
    { p with
      indexMax := c
      maxIntegration := s.val c
      noise := some (s.noise c.1)
      snr := s.snr c
      rfi := some (s.rfi seed) }
  else p

/-- Lines 148-168: track the peak and record the location. -/
def Search.add (s : Search F) (seed : Coord) (p : Protohit F) (c : Coord) : Protohit F :=
  let p' := s.track seed p c
  { p' with locations := p'.locations ++ [c] }

/-- The loop of lines 125-193; `visited` as uint8 (0 or 1). -/
def threshWhile (s : Search F) (seed : Coord) :
    Nat → (Coord → Nat) → List Coord → Protohit F → Outcome ((Coord → Nat) × Protohit F)
  | _, visited, [], p => .ok (visited, p)
  | 0, _, _ :: _, _ => .ub
  | fuel + 1, visited, c :: q, p => do
    let v ← s.grid.read visited c
    if v = 0 then
      let visited' := put visited c (v + 1)
      if s.thr / 2 < s.snr c then
        threshWhile s seed fuel visited'
          (q ++ ((l1Offsets s.dist).map (shift c)).filter
            (fun x => decide (s.grid.has x) && decide (visited' x = 0)))
          (s.add seed p c)
      else
        threshWhile s seed fuel visited' q p
    else
      threshWhile s seed fuel visited q p

/-- Lines 197-207: lowest and highest channel of the cluster at the peak's drift, scanning the
locations in order; note the `else if`. -/
def extent (d : Int) : List Coord → Int × Int → Int × Int
  | [], r => r
  | l :: ls, (lo, hi) =>
    if l.1 = d then
      if hi < l.2 then extent d ls (lo, l.2)
      else if l.2 < lo then extent d ls (l.2, hi)
      else extent d ls (lo, hi)
    else extent d ls (lo, hi)

/-- Lines 196-209. -/
def finishHit (p : Protohit F) : Protohit F :=
  let r := extent p.indexMax.1 p.locations (p.indexMax.2, p.indexMax.2)
  { p with
    binwidth := r.2 - r.1
    indexCenter := (p.indexMax.1, (r.2 + r.1).tdiv 2) }

/-- The fresh component of lines 121-123; `fltMin` is `std::numeric_limits<float>::min()`. -/
def freshHit (fltMin : F) : Protohit F :=
  { indexMax := (0, 0)
    indexCenter := (0, 0)
    snr := fltMin
    maxIntegration := 0
    noise := none
    binwidth := 0
    locations := []
    rfi := none }

/-- The raster scan of lines 111-219. -/
def threshScan (s : Search F) (fltMin : F) :
    Nat → Coord → (Coord → Nat) → List (Protohit F) → Outcome (List (Protohit F))
  | 0, _, _, comps => .ok comps
  | n + 1, c, visited, comps => do
    let v ← s.grid.read visited c
    if v = 0 ∧ s.thr < s.snr c then do
      let (visited', p) ← threshWhile s c
        (1 + s.grid.drifts * s.grid.chans * (l1Offsets s.dist).length) visited [c] (freshHit fltMin)
      threshScan s fltMin n (s.grid.next c) visited' (comps ++ [finishHit p])
    else
      threshScan s fltMin n (s.grid.next c) visited comps

/-- `find_components_above_threshold_cpu` (lines 81-221) on a float32 plane. -/
def findThresh (s : Search F) (fltMin : F) : Outcome (List (Protohit F)) :=
  threshScan s fltMin (s.grid.drifts * s.grid.chans) (0, 0) (fun _ => 0) []

end

end Bliss.Comp
