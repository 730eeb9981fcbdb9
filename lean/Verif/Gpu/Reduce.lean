import Verif.Gpu.Block
import Verif.Gpu.Elementwise
import Verif.Stat.Model

/-!
# Model of the CUDA reductions

`bland/bland/ops/cuda/statistical_cuda.cu`: `reduction_impl` (sum, mean, stddev, var) with and
without a mask, `mean_stddev_impl` with and without a mask, `comparison_reduction_impl` (max), and
the host code that launches them.

The kernels share their loops and differ in what they accumulate, so the loops are modelled once
(`RKernel.rounds`) and the kernels are values of `RKernel`. One block computes one result at a time:
every thread accumulates part of the elements in its cell of shared memory, the block adds the cells
up in a tree with a barrier after every level, and thread 0 stores the result.

Simplifications: the cells `sdata[t]`, `s2data[t]` and `scount[t]` of a thread are one cell holding a
tuple, so a thread reads and writes them together; a kernel that does not normalise its cell is
modelled as storing it back unchanged; the 64-bit counters and linear indices are taken not to
overflow; the count of the masked kernels (32 bits) is exact.
-/

namespace Bliss.Gpu

open Bliss.Nd

variable {V Acc L σ : Type}

/-- Addresses: the cell of a thread in the shared memory of a block, elements of the data, bytes of
the mask. -/
inductive RAddr where
  | shared (b t : Nat)
  | glob (blk : Nat) (i : Int)
  | mask (blk : Nat) (i : Int)
  deriving DecidableEq

/-- Contents of memory. -/
inductive RCell (V Acc : Type) where
  | acc (x : Acc)
  | val (v : V)
  | byte (m : UInt8)

/-- Programs of these kernels. -/
abbrev RProg (V Acc α : Type) := Prog RAddr (RCell V Acc) α

/-- Read a cell of shared memory. -/
def loadAcc {α : Type} (a : RAddr) (k : Acc → RProg V Acc α) : RProg V Acc α :=
  .load a fun c => match c with
    | .acc x => k x
    | _ => .fault

/-- Read an element. -/
def loadVal {α : Type} (a : RAddr) (k : V → RProg V Acc α) : RProg V Acc α :=
  .load a fun c => match c with
    | .val x => k x
    | _ => .fault

/-- Read a byte of the mask. -/
def loadByte {α : Type} (a : RAddr) (k : UInt8 → RProg V Acc α) : RProg V Acc α :=
  .load a fun c => match c with
    | .byte x => k x
    | _ => .fault

/-- The first input index of a block (`statistical_cuda.cu:130-144`): the block number is unravelled
over the dimensions that are not reduced, the others are 0. -/
def startAxes : List Int → List Bool → Nat → List Nat × Nat
  | s :: ss, r :: rs, w =>
    let q := startAxes ss rs w
    if r then (0 :: q.1, q.2) else (q.2 % s.toNat :: q.1, q.2 / s.toNat)
  | _, _, w => ([], w)

/-- Advance of a multi-index along the dimensions whose flag is `which`, from the last
(`statistical_cuda.cu:160-180` and `218-238` with the reduced dimensions, `292-312` with the others):
add the increment, stop if in range, otherwise carry the quotient. The second component is the carry
out of the dimensions visited so far, 0 after the `break`. -/
def advanceAxes (which : Bool) : List Int → List Bool → List Nat → Nat → List Nat × Nat
  | s :: ss, r :: rs, i :: is, inc =>
    let q := advanceAxes which ss rs is inc
    if r = which then
      if q.2 = 0 then (i :: q.1, 0)
      else if i + q.2 < s.toNat then ((i + q.2) :: q.1, 0)
      else ((i + q.2) % s.toNat :: q.1, (i + q.2) / s.toNat)
    else (i :: q.1, q.2)
  | _, _, _, inc => ([], inc)

/-- A reduction kernel: the shape of the input, which dimensions are reduced, the number of elements
per result, and what it accumulates. `L` is what a thread keeps in registers from one element to the
next and from one result to the next (the Kahan compensation), `σ` the output index or indices. -/
structure RKernel (V Acc L σ : Type) where
  shape : List Int
  flags : List Bool
  n : Nat
  /-- initial value of the cell of a thread -/
  zero : Acc
  /-- initial value of the registers -/
  comp : L
  /-- read the element with this multi-index and accumulate it -/
  item : List Nat → L → Acc → RProg V Acc (L × Acc)
  /-- what a thread does to its cell before the tree -/
  norm : Acc → Acc
  /-- one step of the tree: own cell, other cell -/
  merge : Acc → Acc → Acc
  /-- number of results -/
  numel : Nat
  /-- dimensions of the outputs -/
  outRank : Nat
  /-- the output index of the first result of block `b`, and its advance by the number of blocks -/
  first : Nat → σ
  next : Nat → σ → σ
  /-- what thread 0 stores, and where -/
  outs : σ → List (RAddr × (Acc → V))

namespace RKernel

variable (K : RKernel V Acc L σ)

/-- The loop over the elements of one thread (`statistical_cuda.cu:183-239`). `fuel` bounds the
number of rounds; running out of it is reported as a fault, and the theorems show that `n` rounds
suffice. -/
def fillLoop (a : RAddr) (B : Nat) : Nat → Nat → List Nat → L → RProg V Acc L
  | 0, jj, _, c => if jj < K.n then .fault else .ret c
  | fuel + 1, jj, idx, c =>
    if jj < K.n then
      loadAcc a fun x => (K.item idx c x).bind fun r => .store a (.acc r.2)
        (fillLoop a B fuel (jj + B) (advanceAxes true K.shape K.flags idx B).1 r.1)
    else .ret c

/-- What thread `t` of block `b` does for one result before the first barrier
(`statistical_cuda.cu:147-253`): reset the cell, move to its first element, accumulate, normalise. -/
def fill (b B t : Nat) (inIndex : List Nat) (c : L) : RProg V Acc L :=
  .store (.shared b t) (.acc K.zero)
    ((K.fillLoop (.shared b t) B K.n t (advanceAxes true K.shape K.flags inIndex t).1 c).bind
      fun c' => loadAcc (.shared b t) fun x => .store (.shared b t) (.acc (K.norm x)) (.ret c'))

/-- Store results one after the other. -/
def storeAll : List (RAddr × (Acc → V)) → Acc → RProg V Acc Unit
  | [], _ => .ret ()
  | (a, w) :: rest, x => .store a (.val (w x)) (storeAll rest x)

/-- Thread 0 stores the result (`statistical_cuda.cu:267-288`). -/
def emit (b t : Nat) : Option σ → RProg V Acc Unit
  | none => .ret ()
  | some o => if t = 0 then loadAcc (.shared b 0) (storeAll (K.outs o)) else .ret ()

/-- One level of the tree (`statistical_cuda.cu:256-264`). -/
def treeLevel (b s : Nat) {B : Nat} : Phase (Fin B) RAddr (RCell V Acc) L := fun t c =>
  if t.1 < s then
    loadAcc (.shared b t) fun x => loadAcc (.shared b (t + s)) fun y =>
      .store (.shared b t) (.acc (K.merge x y)) (.ret c)
  else .ret c

/-- `for (int s = blockDim.x/2; s > 0; s >>= 1)` (`statistical_cuda.cu:255`). -/
def halvings : Nat → Nat → List Nat
  | 0, _ => []
  | fuel + 1, s => if s = 0 then [] else s :: halvings fuel (s / 2)

/-- The levels of the tree of a block of `B` threads, with a barrier after each. -/
def tree (b B : Nat) : List (Phase (Fin B) RAddr (RCell V Acc) L) :=
  (halvings B (B / 2)).map fun s => K.treeLevel b s

/-- The loop over the results of block `b` of `G` (`statistical_cuda.cu:146-314`) as the list of its
phases. There is no barrier between storing a result and beginning with the next one, so both are in
one phase. -/
def rounds (b B G : Nat) : Nat → Nat → σ → List Nat → Option σ →
    List (Phase (Fin B) RAddr (RCell V Acc) L)
  | 0, i, _, _, pend =>
    [fun t c => if i < K.numel then .fault else (K.emit b t pend).bind fun _ => .ret c]
  | fuel + 1, i, o, inIndex, pend =>
    if i < K.numel then
      (fun t c => (K.emit b t pend).bind fun _ => K.fill b B t inIndex c) ::
        (K.tree b B ++ rounds b B G fuel (i + G) (K.next G o)
          (advanceAxes false K.shape K.flags inIndex G).1 (some o))
    else [fun t c => (K.emit b t pend).bind fun _ => .ret c]

/-- Number of threads per block (`statistical_cuda.cu:1202-1216`): 512, or the largest power of two
that is not larger than the number of elements. -/
def blockSize (n : Nat) : Nat :=
  if n < 512 then
    let x := n ||| (n >>> 1)
    let x := x ||| (x >>> 2)
    let x := x ||| (x >>> 4)
    let x := x ||| (x >>> 8)
    let x := x ||| (x >>> 16)
    x - (x >>> 1)
  else 512

/-- Number of blocks (`statistical_cuda.cu:1219`). -/
def gridSize (numel : Nat) : Nat := min 1024 numel

/-- The phases of block `b`: the index arrays have room for four dimensions
(`statistical_cuda.cu:50,120-122`). -/
def phases (b B G : Nat) : List (Phase (Fin B) RAddr (RCell V Acc) L) :=
  if 4 < K.shape.length ∨ 4 < K.outRank then [fun _ _ => .fault]
  else K.rounds b B G K.numel b (K.first b) (startAxes K.shape K.flags b).1 none

/-- The blocks of a launch. A launch without threads or without blocks is rejected by the runtime
and runs nothing; the host does not look at the error (`statistical_cuda.cu:1229-1236`). -/
def blocks : Fin (gridSize K.numel) → BState (Fin (blockSize K.n)) RAddr (RCell V Acc) L :=
  fun b => .start (fun _ => K.comp) (K.phases b (blockSize K.n) (gridSize K.numel))

end RKernel

/-- Memory at launch: arrays of data and of bytes, and the shared memory of every block with unknown
contents (`junk`). -/
def reduceMem (h : Heap V) (hm : Heap UInt8) (B G : Nat) (junk : Nat → Nat → Acc) :
    Mem RAddr (RCell V Acc)
  | .shared b t => if b < G ∧ t < B then some (.acc (junk b t)) else none
  | .glob blk i => (h.mem blk i).map .val
  | .mask blk i => (hm.mem blk i).map .byte

/-- The arrays of data in device memory after a launch. -/
def reduceHeap (h : Heap V) (s : Mem RAddr (RCell V Acc)) : Heap V :=
  { h with mem := fun b i => match s (.glob b i) with
    | some (.val v) => some v
    | _ => none }

/-- The ways a reduction can end, with the arrays `r` as results. -/
inductive RLaunch {ρ : Type} (K : RKernel V Acc L σ) (h : Heap V) (hm : Heap UInt8)
    (junk : Nat → Nat → Acc) (r : ρ) : Outcome (Heap V × ρ) → Prop
  | fault (hx : Exec BlockStep K.blocks
      (reduceMem h hm (RKernel.blockSize K.n) (RKernel.gridSize K.numel) junk) .ub) :
      RLaunch K h hm junk r .ub
  | done {s : Mem RAddr (RCell V Acc)} (hx : Completes BlockStep K.blocks
      (reduceMem h hm (RKernel.blockSize K.n) (RKernel.gridSize K.numel) junk) s) :
      RLaunch K h hm junk r (.ok (reduceHeap h s, r))

/-! ## The kernels -/

/-- The address of an element: the pointer is *not* moved by the offsets of the view
(`statistical_cuda.cu:184-190`, `1177,1185-1188`). -/
def elementAt (a : Arr) (idx : List Nat) : RAddr :=
  .glob a.blk (sdot a.strides (idx.map fun (i : Nat) => (i : Int)))

/-- The same for a mask (`statistical_cuda.cu:630-637`), with the strides of the mask. -/
def maskAt (m : Arr) (idx : List Nat) : RAddr :=
  .mask m.blk (sdot m.strides (idx.map fun (i : Nat) => (i : Int)))

/-- Accumulate an element (`statistical_cuda.cu:190-216`, `1074-1078`). -/
def plainItem (a : Arr) (step : L → Acc → V → L × Acc) (idx : List Nat) (c : L) (x : Acc) :
    RProg V Acc (L × Acc) :=
  loadVal (elementAt a idx) fun v => .ret (step c x v)

/-- Accumulate an element whose mask byte is 0 (`statistical_cuda.cu:636-664`). -/
def maskedItem (a m : Arr) (step : L → Acc → V → L × Acc) (idx : List Nat) (c : L) (x : Acc) :
    RProg V Acc (L × Acc) :=
  loadByte (maskAt m idx) fun k =>
    if k = 0 then loadVal (elementAt a idx) fun v => .ret (step c x v) else .ret (c, x)

/-- Which dimensions are reduced. -/
def axisFlags (a : Arr) (axes : List Int) : List Bool :=
  (List.range a.dims.length).map fun (d : Nat) => decide ((d : Int) ∈ Stat.allAxes a axes)

/-- The arithmetic of `float` used by these kernels. -/
structure GpuOps (V : Type) where
  zero : V
  add : V → V → V
  sub : V → V → V
  mul : V → V → V
  div : V → V → V
  ofNat : Nat → V
  sqrt : V → V
  /-- `max(0, x)` -/
  clip : V → V
  gt : V → V → Bool
  lowest : V

/-- One step of a Kahan sum (`statistical_cuda.cu:75-81,193-196`): compensation, sum, input. -/
def kahan (o : GpuOps V) (c s v : V) : V × V :=
  let y := o.sub v c
  let t := o.add s y
  (o.sub (o.sub t s) y, t)

/-- Accumulate `x` (`sum`, `mean`). -/
def sumStep (o : GpuOps V) (c : V) (s : V) (v : V) : V × V := kahan o c s v

/-- Accumulate `x` and `x²` (`stddev`, `var`; `statistical_cuda.cu:193-216`). -/
def squareStep (o : GpuOps V) (c : V × V) (s : V × V) (v : V) : (V × V) × (V × V) :=
  let r := kahan o c.1 s.1 v
  let r2 := kahan o c.2 s.2 (o.mul v v)
  ((r.1, r2.1), (r.2, r2.2))

/-- Accumulate `x`, `x²` and the count (masked kernels; `statistical_cuda.cu:638-664`). -/
def countStep (o : GpuOps V) (c : V × V) (s : V × V × Nat) (v : V) : (V × V) × (V × V × Nat) :=
  let r := kahan o c.1 s.1 v
  let r2 := kahan o c.2 s.2.1 (o.mul v v)
  ((r.1, r2.1), (r.2, r2.2, s.2.2 + 1))

/-- `E[x²] - E[x]²`, not below 0 (`statistical_cuda.cu:272-273,283-284`). -/
def variance (o : GpuOps V) (m m2 : V) : V := o.clip (o.sub m2 (o.mul m m))

/-- The output address of an index: again without offsets. -/
def outAddr (out : Arr) (o : List Nat) : RAddr :=
  .glob out.blk (sdot out.strides (o.map fun (i : Nat) => (i : Int)))

/-- A kernel with one output: the output index is unravelled from the block number and advanced by
the number of blocks (`statistical_cuda.cu:124-129,291-300`). -/
def oneOut (a out : Arr) (axes : List Int) (item : List Nat → L → Acc → RProg V Acc (L × Acc))
    (zero : Acc) (comp : L) (norm : Acc → Acc) (merge : Acc → Acc → Acc) (write : Acc → V) :
    RKernel V Acc L (List Nat) where
  shape := a.shape
  flags := axisFlags a axes
  n := (Stat.count a axes).toNat
  zero := zero
  comp := comp
  item := item
  norm := norm
  merge := merge
  numel := out.numel.toNat
  outRank := out.shape.length
  first := fun b => (startIndex out.shape b).1
  next := fun G o => (advance out.shape o G).1
  outs := fun o => [(outAddr out o, write)]

/-- `sum` (`statistical_cuda.cu:100-317`). -/
def sumKernel (o : GpuOps V) (a out : Arr) (axes : List Int) : RKernel V V V (List Nat) :=
  oneOut a out axes (plainItem a (sumStep o)) o.zero o.zero id o.add id

/-- `mean`: every thread divides its part by the number of elements before the tree
(`statistical_cuda.cu:247-249`). -/
def meanKernel (o : GpuOps V) (a out : Arr) (axes : List Int) : RKernel V V V (List Nat) :=
  oneOut a out axes (plainItem a (sumStep o)) o.zero o.zero
    (fun x => o.div x (o.ofNat (Stat.count a axes).toNat)) o.add id

/-- `stddev` and, without the root, `var` (`statistical_cuda.cu:250-253,268-285`). -/
def devKernel (o : GpuOps V) (root : Bool) (a out : Arr) (axes : List Int) :
    RKernel V (V × V) (V × V) (List Nat) :=
  oneOut a out axes (plainItem a (squareStep o)) (o.zero, o.zero) (o.zero, o.zero)
    (fun x => (o.div x.1 (o.ofNat (Stat.count a axes).toNat),
      o.div x.2 (o.ofNat (Stat.count a axes).toNat)))
    (fun x y => (o.add x.1 y.1, o.add x.2 y.2))
    (fun x => let v := variance o x.1 x.2; if root then o.sqrt v else v)

/-- `max` (`statistical_cuda.cu:994-1171`). -/
def maxKernel (o : GpuOps V) (a out : Arr) (axes : List Int) : RKernel V V Unit (List Nat) :=
  oneOut a out axes (plainItem a fun _ m v => ((), if o.gt v m then v else m)) o.lowest () id
    (fun x y => if o.gt y x then y else x) id

/-- The cells of the masked kernels are added component by component
(`statistical_cuda.cu:694-704`). -/
def mergeCount (o : GpuOps V) (x y : V × V × Nat) : V × V × Nat :=
  (o.add x.1 y.1, o.add x.2.1 y.2.1, x.2.2 + y.2.2)

/-- Results of the masked kernels: the division by the count is at the end and not guarded
(`statistical_cuda.cu:708-736`). -/
inductive MaskedOp
  | sum | mean | stddev | var

/-- What a masked kernel stores (`statistical_cuda.cu:708-736`). -/
def maskedWrite (o : GpuOps V) (op : MaskedOp) (x : V × V × Nat) : V :=
  let m := o.div x.1 (o.ofNat x.2.2)
  let m2 := o.div x.2.1 (o.ofNat x.2.2)
  match op with
  | .sum => x.1
  | .mean => m
  | .stddev => o.sqrt (variance o m m2)
  | .var => variance o m m2

/-- The masked kernels (`statistical_cuda.cu:539-770`). `masked_sum` and `masked_mean` do not keep
the squares; here every masked kernel does, which changes no result. -/
def maskedKernel (o : GpuOps V) (op : MaskedOp) (a m out : Arr) (axes : List Int) :
    RKernel V (V × V × Nat) (V × V) (List Nat) :=
  oneOut a out axes (maskedItem a m (countStep o)) (o.zero, o.zero, 0) (o.zero, o.zero) id
    (mergeCount o) (maskedWrite o op)

/-- The increment left in the variable `increment_size` after an advance
(`statistical_cuda.cu:493-502`), together with the advanced index. The flag says that the `break` was
taken. -/
def advanceVar : List Int → List Nat → Nat → List Nat × Nat × Bool
  | s :: ss, i :: is, inc =>
    let r := advanceVar ss is inc
    if r.2.2 then (i :: r.1, r.2.1, true)
    else if i + r.2.1 < s.toNat then ((i + r.2.1) :: r.1, r.2.1, true)
    else ((i + r.2.1) % s.toNat :: r.1, (i + r.2.1) / s.toNat, false)
  | _, _, inc => ([], inc, false)

/-- `mean_stddev` (`statistical_cuda.cu:321-535`): two output indices. The second is advanced by what
the first advance left in `increment_size`, not by the number of blocks. -/
def meanStddevKernel (o : GpuOps V) (a out out2 : Arr) (axes : List Int) :
    RKernel V (V × V) (V × V) (List Nat × List Nat) :=
  { devKernel o true a out axes with
    first := fun b => ((startIndex out.shape b).1, (startIndex out.shape b).1)
    next := fun G p =>
      ((advanceVar out.shape p.1 G).1,
        (advanceVar out.shape p.2 (advanceVar out.shape p.1 G).2.1).1)
    outs := fun p => [(outAddr out p.1, Prod.fst),
      (outAddr { out with blk := out2.blk } p.2, fun x => o.sqrt (variance o x.1 x.2))] }

/-- `masked_mean_stddev` (`statistical_cuda.cu:781-990`): one output index for both outputs. -/
def maskedMeanStddevKernel (o : GpuOps V) (a m out out2 : Arr) (axes : List Int) :
    RKernel V (V × V × Nat) (V × V) (List Nat) :=
  { maskedKernel o .mean a m out axes with
    outs := fun p => [(outAddr out p, maskedWrite o .mean),
      (outAddr { out with blk := out2.blk } p, maskedWrite o .stddev)] }

/-! ## The functions a caller uses -/

/-- A reduction without a mask on the device ends in `r`: the output is allocated
(`statistical.cpp:24-40`), the kernel is launched. An axis the array does not have indexes the shape
out of range (`statistical_cuda.cu:1194-1196`). -/
def GpuReduce (kernel : Arr → RKernel V Acc L σ) (h : Heap V) (a : Arr) (axes : List Int)
    (junk : Int → V) (sh : Nat → Nat → Acc) (r : Outcome (Heap V × Arr)) : Prop :=
  if (Stat.allAxes a axes).any (fun d => d < 0 ∨ (a.dims.length : Int) ≤ d) then r = .ub
  else
    let x := alloc h (Stat.outShape a axes) junk
    RLaunch (kernel x.2) x.1 ⟨fun _ _ => none, 0⟩ sh x.2 r

/-- A reduction with a mask on the device ends in `r`. The shapes of data and mask are not compared
(`statistical_cuda.cu:1242-1300`, `statistical.cpp:103-128`). -/
def GpuMasked (kernel : Arr → RKernel V Acc L σ) (h : Heap V) (hm : Heap UInt8) (a : Arr)
    (axes : List Int) (junk : Int → V) (sh : Nat → Nat → Acc) (r : Outcome (Heap V × Arr)) : Prop :=
  if (Stat.allAxes a axes).any (fun d => d < 0 ∨ (a.dims.length : Int) ≤ d) then r = .ub
  else
    let x := alloc h (Stat.outShape a axes) junk
    RLaunch (kernel x.2) x.1 hm sh x.2 r

/-- `mean_stddev` and `masked_mean_stddev` on the device end in `r`: two outputs are allocated
(`statistical.cpp:256-272`). -/
def GpuReduce2 (kernel : Arr → Arr → RKernel V Acc L σ) (h : Heap V) (hm : Heap UInt8) (a : Arr)
    (axes : List Int) (junk1 junk2 : Int → V) (sh : Nat → Nat → Acc)
    (r : Outcome (Heap V × Arr × Arr)) : Prop :=
  if (Stat.allAxes a axes).any (fun d => d < 0 ∨ (a.dims.length : Int) ≤ d) then r = .ub
  else
    let x := alloc h (Stat.outShape a axes) junk1
    let y := alloc x.1 (Stat.outShape a axes) junk2
    RLaunch (kernel x.2 y.2) y.1 hm sh (x.2, y.2) r

end Bliss.Gpu
