import Verif.Gpu.Merge
import Verif.Comp.Lemmas

/-!
# Model of the component search on the GPU
(`bliss/drift_search/kernels/connected_components_cuda.cu`)

The search runs four kernels one after the other on one stream: labels are initialised, resolved
to peaks, peaks of touching regions are merged, and the survivors are measured.

Simplifications:
* indices are mathematical integers (the C++ uses `int`, `int32_t`, `uint32_t` and `int64_t`);
* the plane and the noise are read through coordinates as in `Verif/Comp/Model.lean`; every
  access is to a cell of the loop or to a neighbour tested to be in the plane;
* SNRs are totally ordered (a NaN SNR fails `> snr_threshold/2` and `> neighborhood_max_snr`
  and so behaves as a value below the threshold);
* allocation failures are not modelled.
-/

namespace Bliss.Gpu

open Bliss.Comp

/-- Position of a cell in memory: `drift_index * number_channels + frequency_channel`. -/
def lin (g : Grid) (x : Coord) : Int := x.1 * g.chans + x.2

/-- Outcome of looking at one cell (`connected_components_cuda.cu` 50–101). -/
inductive Class
  | skip
  | peak
  | toward (m : Int)
  deriving DecidableEq

section
variable {F : Type} [Sub F] [Div F] [LinearOrder F] [OfNat F 0] [OfNat F 2]

/-- Models lines 53–79: visit the neighbours, tracking `is_neighborhood_max`,
`neighborhood_max_snr` and `neighborhood_max_index`; `none` is `goto done`. -/
def scanHood (s : Search F) : List Coord → Bool × F × Int → Option (Bool × F × Int)
  | [], st => some st
  | y :: ys, (b, best, m) =>
    if s.grid.has y then
      if best < s.snr y then scanHood s ys (false, s.snr y, lin s.grid y)
      else scanHood s ys (b, best, m)
    else none

/-- Models lines 44–101 for the cell `x`: what the first kernel does with it. -/
def classify (s : Search F) (x : Coord) : Class :=
  if s.thr / 2 < s.snr x then
    match scanHood s ((l1Offsets s.dist).map (shift x)) (true, s.snr x, lin s.grid x) with
    | none => .skip
    | some (true, _, _) => if s.thr < s.snr x then .peak else .skip
    | some (false, _, m) => .toward m
  else .skip

/-! ## Kernel 1: initialise -/

/-- Memory of the first kernel: the counter `*number_protohits`, the protohits and the labels.
`claims` is a history variable that the program does not read: the cells that have taken a
number from the counter, in that order. -/
structure InitMem (F : Type) where
  counter : Int
  slots : Buf (Slot F)
  labels : Buf Int
  claims : List Nat

/-- Where a thread of the first kernel is; `w` are its cells still to visit. -/
inductive IState
  | done
  | claim (n : Nat) (w : List Nat)
  | fill (n : Nat) (id : Int) (w : List Nat)
  | label (n : Nat) (id : Int) (w : List Nat)
  | point (n : Nat) (m : Int) (w : List Nat)

/-- The loop over the cells of a thread (40–103); cells that are skipped take no step. -/
def inext (s : Search F) : List Nat → IState
  | [] => .done
  | n :: w =>
    match classify s (cellAt s.grid n) with
    | .skip => inext s w
    | .peak => .claim n w
    | .toward m => .point n m w

/-- Models `initialize_components_kernel` (11–104): the steps are the `atomicAdd` (84), the
stores to the fields of the new protohit (85–89, one step, no other thread uses this protohit),
and the stores of the label (91 and 98). `cap` is `n_max_protohits`. -/
inductive InitStep (s : Search F) (cap : Int) : Kernel IState (InitMem F)
  | claim {n w μ} : InitStep s cap (.claim n w) μ
      (.ok (.fill n μ.counter w, { μ with counter := μ.counter + 1, claims := μ.claims ++ [n] }))
  | fill {n id w μ a} (h : μ.slots id = some a) : InitStep s cap (.fill n id w) μ
      (.ok (.label n id w, { μ with
        slots := fun j => if j = id then some ⟨n, s.snr (cellAt s.grid n), 0⟩ else μ.slots j }))
  | label {n id w μ v} (h : μ.labels n = some v) : InitStep s cap (.label n id w) μ
      (.ok (inext s w, { μ with labels := fun j => if j = n then some id else μ.labels j }))
  | point {n m w μ v} (h : μ.labels n = some v) : InitStep s cap (.point n m w) μ
      (.ok (inext s w, { μ with labels := fun j => if j = n then some (cap + m) else μ.labels j }))
  | fillBad {n id w μ} (h : μ.slots id = none) : InitStep s cap (.fill n id w) μ .ub
  | labelBad {n id w μ} (h : μ.labels n = none) : InitStep s cap (.label n id w) μ .ub
  | pointBad {n m w μ} (h : μ.labels n = none) : InitStep s cap (.point n m w) μ .ub

/-- Size of the plane. -/
def numel (s : Search F) : Nat := s.grid.drifts * s.grid.chans

/-- Models the host code before the launch (349–377): `number_protohits` is
`numel / (neighbor_l1_dist * neighbor_l1_dist)`, the protohits are default-constructed
(`invalidated_by = -1`), the counter is 8 and the labels are 0. A distance of 0 divides by
zero: undefined. -/
def capacity (s : Search F) : Outcome Int :=
  if s.dist = 0 then .ub else .ok ((numel s : Int) / (s.dist * s.dist))

/-- Memory at the launch of the first kernel; the other fields of a default-constructed protohit
are zero. -/
def initMem (s : Search F) (cap : Int) : InitMem F :=
  { counter := 8
    slots := Buf.ofFn cap fun _ => ⟨0, 0, -1⟩
    labels := Buf.ofFn (numel s) fun _ => 0
    claims := [] }

/-- Where thread `t` of `G` threads starts (37–40). -/
def initThreads (s : Search F) (G : Nat) : Fin G → IState := fun t =>
  inext s (gridStride G (numel s) t)

/-! ## Kernel 2: resolve -/

/-- Where a thread of the second kernel is. -/
inductive RState
  | done
  | test (n : Nat) (w : List Nat)
  | root (n : Nat) (w : List Nat)
  | climb (n : Nat) (c : Int) (w : List Nat)
  | store (n : Nat) (v : Int) (w : List Nat)

/-- The loop over the cells of a thread (131–152). -/
def rnext : List Nat → RState
  | [] => .done
  | n :: w => .test n w

/-- After `component` was read in `find_root` (110–116) and 143–149: climb on, or store the
root, or store 0 if it is not the label of a protohit. -/
def rafter (cap : Int) (n : Nat) (c : Int) (w : List Nat) : RState :=
  if cap < c then .climb n c w else .store n (if c < cap then c else 0) w

/-- Models `resolve_labels` and `find_root` (106–153): the steps are the reads of the own label
(138 and 110), of the labels climbed through (114), and the store (144, 148). -/
inductive ResolveStep (cap : Int) : Kernel RState (Buf Int)
  | keep {n w lab c} (h : lab (n : Int) = some c) (hc : ¬ (8 ≤ c ∧ cap < c)) :
      ResolveStep cap (.test n w) lab (.ok (rnext w, lab))
  | pointer {n w lab c} (h : lab (n : Int) = some c) (hc : 8 ≤ c ∧ cap < c) :
      ResolveStep cap (.test n w) lab (.ok (.root n w, lab))
  | root {n w lab c} (h : lab (n : Int) = some c) :
      ResolveStep cap (.root n w) lab (.ok (rafter cap n c w, lab))
  | climb {n c w lab c'} (h : lab (c - cap) = some c') :
      ResolveStep cap (.climb n c w) lab (.ok (rafter cap n c' w, lab))
  | store {n v w lab c} (h : lab (n : Int) = some c) :
      ResolveStep cap (.store n v w) lab
        (.ok (rnext w, fun j => if j = n then some v else lab j))
  | testBad {n w lab} (h : lab (n : Int) = none) : ResolveStep cap (.test n w) lab .ub
  | rootBad {n w lab} (h : lab (n : Int) = none) : ResolveStep cap (.root n w) lab .ub
  | climbBad {n c w lab} (h : lab (c - cap) = none) : ResolveStep cap (.climb n c w) lab .ub
  | storeBad {n v w lab} (h : lab (n : Int) = none) : ResolveStep cap (.store n v w) lab .ub

/-- Where thread `t` starts. -/
def resolveThreads (s : Search F) (G : Nat) : Fin G → RState := fun t =>
  rnext (gridStride G (numel s) t)

/-! ## Kernel 3: merge -/

/-- The neighbours visited by the loops of lines 185–200 around `x`: a channel outside the plane
ends the outer loop, a drift outside the plane ends the inner loop. -/
def mergeHood (s : Search F) (x : Coord) : List Coord :=
  ((intRange (-s.dist) s.dist).takeWhile fun f =>
      decide (0 ≤ x.2 + f ∧ x.2 + f < s.grid.chans)).flatMap fun f =>
    (((intRange (-s.dist + f.natAbs) (s.dist - f.natAbs)).takeWhile fun d =>
      decide (0 ≤ x.1 + d ∧ x.1 + d < s.grid.drifts)).map fun d => (x.1 + d, x.2 + f))

/-- The label of a position; 0 outside (never used there). -/
def labelAt (lab : Buf Int) (i : Int) : Int := (lab i).getD 0

/-- Models the reads of labels in `merge_labels` (169–206): for each cell of the thread with a
label from 8 up, that label and those of its neighbours with a label from 8 up. -/
def mergeWork (s : Search F) (lab : Buf Int) (G : Nat) : Fin G → List (Int × List Int) := fun t =>
  (gridStride G (numel s) t).filterMap fun n : Nat =>
    if 8 ≤ labelAt lab n then
      some (labelAt lab n, ((mergeHood s (cellAt s.grid n)).map fun y =>
        labelAt lab (lin s.grid y)).filter fun q => decide (8 ≤ q))
    else none

/-! ## Kernel 4 and export -/

/-- A protohit as exported (472–491). -/
structure GpuHit (F : Type) where
  indexMax : Coord
  indexCenter : Coord
  snr : F
  maxIntegration : F
  noise : F
  binwidth : Int
  rfi : Nat × Nat × Nat

/-- Models lines 286–292; the loop runs at most as often as there are channels. -/
def lowerEdge (g : Grid) (lab : Buf Int) (d : Int) : Nat → Int → Outcome Int
  | 0, _ => .ub
  | fuel + 1, e => do
    let v ← lab.load (lin g (d, e - 1))
    if 1 < v ∧ 0 < e - 1 then lowerEdge g lab d fuel (e - 1) else .ok (e - 1)

/-- Models lines 294–300. -/
def upperEdge (g : Grid) (lab : Buf Int) (d : Int) : Nat → Int → Outcome Int
  | 0, _ => .ub
  | fuel + 1, e => do
    let v ← lab.load (lin g (d, e + 1))
    if 1 < v ∧ e + 1 < g.chans - 1 then upperEdge g lab d fuel (e + 1) else .ok (e + 1)

/-- Models `collect_protohit_md_kernel` (277–309) and the export (475–490) for one protohit that
is not invalidated. Every protohit is measured by one thread from labels that no thread writes,
so the order of the threads has no effect. The counts read `rfi_low_sk` and `rfi_high_sk` at the
peak (303–304); the rolloff count is always 0 (486). The fields `max_integration` and
`desmeared_noise` were stored together with the position (85–88). -/
def collectOne (s : Search F) (lab : Buf Int) (a : Slot F) : Outcome (GpuHit F) := do
  let x := cellAt s.grid a.pixel.toNat
  let lo ← lowerEdge s.grid lab x.1 (s.grid.chans + 1) x.2
  let hi ← upperEdge s.grid lab x.1 (s.grid.chans + 1) x.2
  .ok { indexMax := x
        indexCenter := (x.1, (lo + hi).tdiv 2)
        snr := a.snr
        maxIntegration := s.val x
        noise := s.noise x.1
        binwidth := hi - lo
        rfi := ((s.rfi x).1, (s.rfi x).2.1, 0) }

/-- Models lines 457–491: the protohits below the counter are measured and exported in order
unless invalidated. `n` counts the remaining ones, `id` is the next one. -/
def exportFrom (s : Search F) (slots : Buf (Slot F)) (lab : Buf Int) :
    Nat → Int → Outcome (List (GpuHit F))
  | 0, _ => .ok []
  | n + 1, id => do
    let a ← slots.load id
    if a.inv = 0 then do
      let h ← collectOne s lab a
      let rest ← exportFrom s slots lab n (id + 1)
      .ok (h :: rest)
    else exportFrom s slots lab n (id + 1)

/-- Models lines 453–491: `erase(begin, begin + 8)` on the vector of `cap` protohits is undefined
if it has fewer than 8; then `n` protohits from the ninth on are exported. -/
def exportAll (s : Search F) (cap : Int) (slots : Buf (Slot F)) (lab : Buf Int) (n : Nat) :
    Outcome (List (GpuHit F)) :=
  if cap < 8 then .ub else exportFrom s slots lab n 8

/-- `find_components_above_threshold_cuda` (335–494) can return the protohits `out` when run
with `G` threads: each kernel has a complete execution, and the kernels run one after the other.
`stale` says whether plain reads of the merge may see old values. -/
def Reports (s : Search F) (G : Nat) (stale : Bool) (out : List (GpuHit F)) : Prop :=
  ∃ cap μ lab slots,
    capacity s = .ok cap ∧
    Completes (InitStep s cap) (initThreads s G) (initMem s cap) μ ∧
    Completes (ResolveStep cap) (resolveThreads s G) μ.labels lab ∧
    Completes (MergeStep stale) (mergeInit (mergeWork s lab G)) μ.slots slots ∧
    exportAll s cap slots lab (μ.counter - 8).toNat = .ok out

/-- Some execution of the search has undefined behaviour: one of the kernels does after complete
executions of the ones before it, or the host code does. -/
def CanFault (s : Search F) (G : Nat) (stale : Bool) : Prop :=
  capacity s = .ub ∨ ∃ cap, capacity s = .ok cap ∧
    (Exec (InitStep s cap) (initThreads s G) (initMem s cap) .ub ∨
    ∃ μ, Completes (InitStep s cap) (initThreads s G) (initMem s cap) μ ∧
    (Exec (ResolveStep cap) (resolveThreads s G) μ.labels .ub ∨
    ∃ lab, Completes (ResolveStep cap) (resolveThreads s G) μ.labels lab ∧
    (Exec (MergeStep stale) (mergeInit (mergeWork s lab G)) μ.slots .ub ∨
    ∃ slots, Completes (MergeStep stale) (mergeInit (mergeWork s lab G)) μ.slots slots ∧
      exportAll s cap slots lab (μ.counter - 8).toNat = .ub)))

end
end Bliss.Gpu
