import Verif.Nd.Model

/-!
# Model of the CPU reductions

`bland/bland/ops/cpu/statistical_cpu.cpp` (mean, masked_mean, stddev, masked_stddev, mean_stddev,
masked_mean_stddev, median, sum, count_true, max) and the functions of
`bland/bland/ops/statistical.cpp` that allocate the output.

All kernels share the same loops and differ in what they accumulate; the loops are modelled once
(`innerLoop`, `outerLoop`) and the kernels are values of `visit` and `finish`. The data array and
the output have the same element type `V`; a mask lives in a heap of bytes of its own. The `int`
loop counters are taken not to overflow.
-/

namespace Bliss.Stat

open Bliss.Nd

variable {V A : Type}

/-- The increment of a multi-index along the listed axes, the last of them fastest
(`statistical_cpu.cpp:73-82`, and `104-114` with the axes that are not reduced). The second
component says that every axis wrapped around. -/
def incAxes (shape : List Int) : List Nat → List Int → List Int × Bool
  | [], idx => (idx, true)
  | d :: ds, idx =>
    let r := incAxes shape ds idx
    if r.2 then
      if r.1.getD d 0 + 1 ≠ shape.getD d 0 then (r.1.set d (r.1.getD d 0 + 1), false)
      else (r.1.set d 0, true)
    else r

/-- The linear index of an element of the input (`statistical_cpu.cpp:67-70`); `%` by zero is
undefined. -/
def linIdx : List Dim → List Int → Outcome Int
  | d :: ds, i :: is =>
    if d.size = 0 then .ub
    else do
      let r ← linIdx ds is
      pure (d.offset + i.tmod d.size * d.stride + r)
  | _, _ => .ok 0

/-- The linear index of an element of the output (`statistical_cpu.cpp:85-88`). Some kernels take
the index modulo the size here, which changes nothing: the index is in range. -/
def linOut : List Dim → List Int → Int
  | d :: ds, i :: is => d.offset + i * d.stride + linOut ds is
  | _, _ => 0

/-- The axes that are not reduced, in increasing order (`statistical_cpu.cpp:105`). -/
def keptAxes (n : Nat) (axes : List Nat) : List Nat := (List.range n).filter (fun d => d ∉ axes)

/-- The inner loop (`statistical_cpu.cpp:65-83`): `n` elements starting at multi-index `idx`;
`visit` adds the element at a linear index to the accumulator. Simplified: the counters are `int` in the
code, so the model is right for fewer than 2^31 elements per result and in the result. -/
def innerLoop (a : Arr) (axes : List Nat) (visit : A → Int → Outcome A) (n : Nat) (init : A)
    (idx : List Int) : Outcome (A × List Int) :=
  forLoop n (fun _ st => do
    let l ← linIdx a.dims st.2
    let acc ← visit st.1 l
    pure (acc, (incAxes a.shape axes st.2).1)) (init, idx)

/-- One iteration of the outer loop (`statistical_cpu.cpp:60-115`): reduce, store the result with
`emit` at the linear index of the output, advance the output and the input index. -/
def outerBody (a out : Arr) (axes : List Nat) (visit : Heap V → A → Int → Outcome A)
    (emit : A → Int → Heap V → Outcome (Heap V)) (n : Nat) (init : A)
    (st : Heap V × List Int × List Int) : Outcome (Heap V × List Int × List Int) := do
  let r ← innerLoop a axes (visit st.1) n init st.2.2
  let h' ← emit r.1 (linOut out.dims st.2.1) st.1
  pure (h', (incAxes out.shape (List.range out.dims.length) st.2.1).1,
    (incAxes a.shape (keptAxes a.dims.length axes) st.2.2).1)

/-- Number of elements per result (`statistical_cpu.cpp:37-40`). -/
def reducedCount (a : Arr) (axes : List Nat) : Int :=
  (axes.map (fun d => a.shape.getD d 0)).foldl (· * ·) 1

/-- A kernel without its dispatch (`statistical_cpu.cpp:25-120`): an axis that the array does not
have indexes the shape out of range. -/
def reduceInto (a out : Arr) (axes : List Int) (visit : Heap V → A → Int → Outcome A)
    (emit : A → Int → Heap V → Outcome (Heap V)) (init : A) (h : Heap V) : Outcome (Heap V) :=
  if axes.any (fun d => d < 0 ∨ (a.dims.length : Int) ≤ d) then .ub
  else do
    let r ← forLoop out.numel.toNat
      (fun _ st => outerBody a out (axes.map Int.toNat) visit emit
        (reducedCount a (axes.map Int.toNat)).toNat init st)
      (h, out.dims.map (fun _ => 0), a.dims.map (fun _ => 0))
    pure r.1

/-- The shape of the result (`statistical.cpp:25-37`, the same in every function): the sizes of the
axes that are not reduced, or `{1}`. -/
def outShape (a : Arr) (axes : List Int) : List Int :=
  let s := if axes = [] then [] else
    ((List.range a.dims.length).filter (fun (d : Nat) => (d : Int) ∉ axes)).map (fun d => a.shape.getD d 0)
  if s = [] then [1] else s

/-- Without axes all of them are reduced (`statistical.cpp:49-53`). -/
def allAxes (a : Arr) (axes : List Int) : List Int :=
  if axes = [] then (List.range a.dims.length).map (fun d : Nat => (d : Int)) else axes

/-- What a kernel with one output does with an accumulator. -/
def emit1 (out : Arr) (finish : A → Outcome V) (acc : A) (l : Int) (h : Heap V) :
    Outcome (Heap V) := do
  let v ← finish acc
  h.store out.blk l v

/-- The functions that allocate one output (`statistical.cpp:24-40`). -/
def reduceNew (a : Arr) (axes : List Int) (visit : Heap V → A → Int → Outcome A)
    (finish : A → Outcome V) (init : A) (junk : Int → V) (h : Heap V) :
    Outcome (Heap V × Arr) := do
  let r := alloc h (outShape a axes) junk
  let h2 ← reduceInto a r.2 (allAxes a axes) visit (emit1 r.2 finish) init r.1
  pure (h2, r.2)

/-- What a kernel with two outputs does with an accumulator: both are stored at the linear index of
the *first* (`statistical_cpu.cpp:569-578`). -/
def emit2 (out1 out2 : Arr) (finish : A → Outcome (V × V)) (acc : A) (l : Int) (h : Heap V) :
    Outcome (Heap V) := do
  let v ← finish acc
  let h1 ← h.store out1.blk l v.1
  h1.store out2.blk l v.2

/-- The functions that allocate two outputs (`statistical.cpp:256-272`). -/
def reduceNew2 (a : Arr) (axes : List Int) (visit : Heap V → A → Int → Outcome A)
    (finish : A → Outcome (V × V)) (init : A) (junk1 junk2 : Int → V) (h : Heap V) :
    Outcome (Heap V × Arr × Arr) := do
  let r1 := alloc h (outShape a axes) junk1
  let r2 := alloc r1.1 (outShape a axes) junk2
  let h2 ← reduceInto a r1.2 (allAxes a axes) visit (emit2 r1.2 r2.2 finish) init r2.1
  pure (h2, r1.2, r2.2)

/-! ## The kernels -/

/-- The arithmetic of the kernels for `float` data `V` accumulated in `double` `D`. -/
structure StatOps (V D : Type) where
  toD : V → D
  toV : D → V
  zero : D
  add : D → D → D
  sub : D → D → D
  mul : D → D → D
  div : D → D → D
  ofInt : Int → D
  sqrt : D → D
  /-- `std::max(0.0, x)` -/
  clip : D → D
  /-- `float` operations of `sum` and `max` -/
  zeroV : V
  addV : V → V → V
  gtV : V → V → Bool
  /-- `std::numeric_limits<float>::lowest()` -/
  lowest : V

variable {D : Type}

/-- An element of the data. -/
def plainVisit (a : Arr) (f : A → V → A) (h : Heap V) (acc : A) (l : Int) : Outcome A := do
  let v ← h.load a.blk l
  pure (f acc v)

/-- Number of elements per result, `reduced_elements`. -/
def count (a : Arr) (axes : List Int) : Int := reducedCount a ((allAxes a axes).map Int.toNat)

/-- `mean` (`statistical_cpu.cpp:25-120`) of floats. -/
def mean (o : StatOps V D) (a : Arr) (axes : List Int) (junk : Int → V) (h : Heap V) :
    Outcome (Heap V × Arr) :=
  reduceNew a axes (plainVisit a (fun acc v => o.add acc (o.toD v)))
    (fun acc => .ok (o.toV (o.div acc (o.ofInt (count a axes))))) o.zero junk h

/-- `sum` (`statistical_cpu.cpp:919-1010`) of floats: accumulated in the type of the data. -/
def sum (o : StatOps V D) (a : Arr) (axes : List Int) (junk : Int → V) (h : Heap V) :
    Outcome (Heap V × Arr) :=
  reduceNew a axes (plainVisit a o.addV) (fun acc => .ok acc) o.zeroV junk h

/-- The loop body of `max` (`statistical_cpu.cpp:1104-1107`). -/
def maxStep (o : StatOps V D) (m v : V) : V := if o.gtV v m then v else m

/-- `max` (`statistical_cpu.cpp:1064-1155`). -/
def max (o : StatOps V D) (a : Arr) (axes : List Int) (junk : Int → V) (h : Heap V) :
    Outcome (Heap V × Arr) :=
  reduceNew a axes (plainVisit a (maxStep o)) (fun acc => .ok acc) o.lowest junk h

/-- Accumulators of `stddev`: Σ x/n and Σ x²/n, where `1/n` is computed first
(`statistical_cpu.cpp:283,300-302`). -/
def devStep (o : StatOps V D) (n : Int) (acc : D × D) (v : V) : D × D :=
  (o.add acc.1 (o.mul (o.toD v) (o.div (o.ofInt 1) (o.ofInt n))),
   o.add acc.2 (o.mul (o.mul (o.toD v) (o.toD v)) (o.div (o.ofInt 1) (o.ofInt n))))

/-- `statistical_cpu.cpp:322-323`. -/
def devFinish (o : StatOps V D) (acc : D × D) : V :=
  o.toV (o.sqrt (o.clip (o.sub acc.2 (o.mul acc.1 acc.1))))

/-- `stddev` (`statistical_cpu.cpp:250-353`) of floats. -/
def stddev (o : StatOps V D) (a : Arr) (axes : List Int) (junk : Int → V) (h : Heap V) :
    Outcome (Heap V × Arr) :=
  reduceNew a axes (plainVisit a (devStep o (count a axes)))
    (fun acc => .ok (devFinish o acc)) (o.zero, o.zero) junk h

/-- `mean_stddev` (`statistical_cpu.cpp:494-606`). -/
def meanStddev (o : StatOps V D) (a : Arr) (axes : List Int) (junk1 junk2 : Int → V) (h : Heap V) :
    Outcome (Heap V × Arr × Arr) :=
  reduceNew2 a axes (plainVisit a (devStep o (count a axes)))
    (fun acc => .ok (o.toV acc.1, devFinish o acc)) (o.zero, o.zero) junk1 junk2 h

/-- An element of the data and its mask byte: both are read at the linear index of the *data*
(`statistical_cpu.cpp:184-187`, `428-433`). -/
def maskedVisit (a mask : Arr) (hm : Heap UInt8) (f : A → V → A) (h : Heap V) (acc : A) (l : Int) :
    Outcome A := do
  let m ← hm.load mask.blk l
  if m = 0 then do
    let v ← h.load a.blk l
    pure (f acc v)
  else pure acc

/-- `masked_mean` (`statistical_cpu.cpp:122-239`) of floats with a mask of bytes; the shape check
(`158-166`) comes before any element is read. -/
def maskedMean (o : StatOps V D) (a mask : Arr) (hm : Heap UInt8) (axes : List Int) (junk : Int → V)
    (h : Heap V) : Outcome (Heap V × Arr) :=
  if a.shape = mask.shape then
    reduceNew a axes
      (maskedVisit a mask hm (fun (acc : D × Int) v => (o.add acc.1 (o.toD v), acc.2 + 1)))
      (fun acc => if acc.2 = 0 then .throws .runtimeError
        else .ok (o.toV (o.div acc.1 (o.ofInt acc.2)))) (o.zero, 0) junk h
  else .throws .runtimeError

/-- Accumulators of `masked_stddev` (`statistical_cpu.cpp:428-433`). -/
def mdevStep (o : StatOps V D) (acc : D × D × Int) (v : V) : D × D × Int :=
  (o.add acc.1 (o.toD v), o.add acc.2.1 (o.mul (o.toD v) (o.toD v)), acc.2.2 + 1)

/-- `statistical_cpu.cpp:456-457`: no `max(0, ·)` here. -/
def mdevFinish (o : StatOps V D) (acc : D × D × Int) : V :=
  o.toV (o.sqrt (o.sub (o.div acc.2.1 (o.ofInt acc.2.2))
    (o.mul (o.div acc.1 (o.ofInt acc.2.2)) (o.div acc.1 (o.ofInt acc.2.2)))))

/-- `masked_stddev` (`statistical_cpu.cpp:359-488`). -/
def maskedStddev (o : StatOps V D) (a mask : Arr) (hm : Heap UInt8) (axes : List Int)
    (junk : Int → V) (h : Heap V) : Outcome (Heap V × Arr) :=
  if a.shape = mask.shape then
    reduceNew a axes (maskedVisit a mask hm (mdevStep o))
      (fun acc => if acc.2.2 = 0 then .throws .runtimeError else .ok (mdevFinish o acc))
      (o.zero, o.zero, 0) junk h
  else .throws .runtimeError

/-- `masked_mean_stddev` (`statistical_cpu.cpp:608-744`). -/
def maskedMeanStddev (o : StatOps V D) (a mask : Arr) (hm : Heap UInt8) (axes : List Int)
    (junk1 junk2 : Int → V) (h : Heap V) : Outcome (Heap V × Arr × Arr) :=
  if a.shape = mask.shape then
    reduceNew2 a axes (maskedVisit a mask hm (mdevStep o))
      (fun acc => if acc.2.2 = 0 then .throws .runtimeError
        else .ok (o.toV (o.div acc.1 (o.ofInt acc.2.2)), mdevFinish o acc))
      (o.zero, o.zero, 0) junk1 junk2 h
  else .throws .runtimeError

/-- `count_true` (`statistical_cpu.cpp:1017-1056`): the odometer of the element-wise loops, reading
every element. -/
def countTrue (nonzero : V → Bool) (h : Heap V) (a : Arr) : Outcome Int := do
  let ld : List (LoopDim Int) :=
    a.dims.map (fun d => { size := d.size, stride := d.stride, reset := d.size * d.stride })
  let r ← forLoop a.numel.toNat (fun _ (st : Int × List Int × Int) => do
    let v ← h.load a.blk st.2.2
    let c := odoB 1 ld st.2.1 st.2.2
    pure (if nonzero v then st.1 + 1 else st.1, c.1, c.2.1)) (0, a.dims.map (fun _ => 0), a.base)
  pure r.1

end Bliss.Stat
