import Verif.Base
import Mathlib.Algebra.Group.Prod
import Mathlib.Algebra.Group.Int.Defs

/-!
# Model of the array library `bland` (CPU side)

An array is a block of memory plus, per dimension, a size, a stride and an offset
(`bland/bland/include/bland/ndarray.hpp`, `bland/bland/bland_tensor_internals.cpp`).

Simplifications, used throughout:
* the three vectors `shape`, `strides`, `_offsets` always have the same length `ndim`, so they
  are one list of `Dim`;
* `int64_t` arithmetic on indices is exact (no overflow);
* element values live in one type `V`; an element operation with its dtype conversions is a
  parameter `V → V` or `V → V → V`.
-/

namespace Bliss.Nd

/-- One dimension of an array: entries of `shape`, `strides`, `_offsets`. -/
structure Dim where
  size : Int
  stride : Int
  offset : Int
  deriving DecidableEq, Repr

/-- An array or slice: a handle to a memory block with a layout. Copies of an `ndarray` share the
block (`bland_tensor_internals.cpp:143-165`). -/
structure Arr where
  blk : Nat
  dims : List Dim
  deriving DecidableEq, Repr

/-- `ndarray::shape()` (`ndarray.cpp:179-181`). -/
def Arr.shape (a : Arr) : List Int := a.dims.map Dim.size

/-- `ndarray::strides()` (`ndarray.cpp:191-193`). -/
def Arr.strides (a : Arr) : List Int := a.dims.map Dim.stride

/-- `ndarray::numel()` (`ndarray.cpp:207-210`). The C++ accumulates the product in an `int`; here it is
exact, which is the same for arrays of fewer than 2³¹ elements (`Types.C73_numel_partial`). -/
def Arr.numel (a : Arr) : Int := a.shape.foldl (· * ·) 1

/-- `std::accumulate(offsets.begin(), offsets.end(), 0)`, the start of every loop
(e.g. `elementwise_binary_op.hpp:43-45`). The C++ accumulates in `int`; here exactly, which is the same
for views that start less than 2³¹ elements into their array (`Nd/Large.lean`). -/
def Arr.base (a : Arr) : Int := (a.dims.map Dim.offset).foldl (· + ·) 0

/-- Memory: block ↦ contents, and the next unused block. -/
structure Heap (V : Type) where
  mem : Nat → Buf V
  next : Nat

variable {V : Type}

/-- Element load through `data_ptr`. -/
def Heap.load (h : Heap V) (blk : Nat) (i : Int) : Outcome V := (h.mem blk).load i

/-- Element store through `data_ptr`. -/
def Heap.store (h : Heap V) (blk : Nat) (i : Int) (v : V) : Outcome (Heap V) := do
  let b ← (h.mem blk).store i v
  pure { h with mem := fun k => if k = blk then b else h.mem k }

/-- Row-major strides of a shape (`ndarray.cpp:131-140`): the loop runs from the last dimension
with a running product, returned here together with the dimensions built so far. -/
def denseDims : List Int → List Dim × Int
  | [] => ([], 1)
  | s :: ss =>
    let (ds, stride) := denseDims ss
    ({ size := s, stride := stride, offset := 0 } :: ds, stride * s)

/-- `ndarray(dims, dtype, device)` (`ndarray.cpp:131-140`, `bland_tensor_internals.cpp:48-80`):
a new block of `numel` elements with unspecified contents `junk` (a negative count, which the C++
passes to `posix_memalign` as a huge size, is taken as "no elements"). -/
def alloc (h : Heap V) (shape : List Int) (junk : Int → V) : Heap V × Arr :=
  let (ds, n) := denseDims shape
  ({ mem := fun k => if k = h.next then Buf.ofFn n junk else h.mem k, next := h.next + 1 },
   { blk := h.next, dims := ds })

/-! ## Broadcasting helpers -/

/-- The loop of `expand_shapes_to_broadcast` (`shape_helpers.cpp:10-28`), on reversed shapes; a
missing dimension counts as 1. -/
def expandRev : List Int → List Int → Outcome (List Int)
  | [], ys => .ok (ys.map (max 1 ·))
  | x :: xs, [] => do
    let r ← expandRev xs []
    pure (max x 1 :: r)
  | x :: xs, y :: ys =>
    if x ≠ y ∧ x ≠ 1 ∧ y ≠ 1 then .throws .invalidArgument
    else do
      let r ← expandRev xs ys
      pure (max x y :: r)

/-- `expand_shapes_to_broadcast` (`shape_helpers.cpp:10-28`). -/
def expandShapes (a b : List Int) : Outcome (List Int) := do
  let r ← expandRev a.reverse b.reverse
  pure r.reverse

/-- `compute_broadcast_strides` (`shape_helpers.cpp:44-56`): right-aligned, 0 where the size is 1.
With more input than output dimensions the C++ writes before the start of the vector unless all
surplus sizes are 1. -/
def bcStrides (shape strides out : List Int) : Outcome (List Int) :=
  let surplus := shape.length - out.length
  if (shape.take surplus).any (· ≠ 1) then .ub
  else .ok (List.replicate (out.length - shape.length) 0 ++
    List.zipWith (fun s st => if s ≠ 1 then st else 0) (shape.drop surplus) (strides.drop surplus))

/-- `compute_broadcast_shape` (`shape_helpers.cpp:58-72`): aligned greedily from the *front*; the
C++ reads `shape[input_shape_index]` past the end when the input is used up. -/
def bcShape : List Int → List Int → Outcome (List Int)
  | _, [] => .ok []
  | [], _ :: _ => .ub
  | s :: ss, o :: os =>
    if s = o ∨ s = 1 then do
      let r ← bcShape ss os
      pure (o :: r)
    else do
      let r ← bcShape (s :: ss) os
      pure (1 :: r)

/-! ## Index odometers -/

/-- What a loop needs to know about one output dimension: its size, the stride of every operand
(`P` collects one linear index per operand) and what is subtracted when it wraps. -/
structure LoopDim (P : Type) where
  size : Int
  stride : P
  reset : P

section
variable {P : Type} [AddCommGroup P]

/-- The multi-index increment of `elementwise_scalar_op` (`elementwise_scalar_op.hpp:45-57`), also
used by the unary, assignment and statistics kernels: from the last dimension, `++idx`; if it
reached the size, rewind and carry. The last component says that every dimension wrapped. -/
def odoA : List (LoopDim P) → List Int → P → List Int × P × Bool
  | d :: ds, i :: is, p =>
    let r := odoA ds is p
    if r.2.2 then
      if i + 1 ≠ d.size then ((i + 1) :: r.1, r.2.1 + d.stride, false)
      else (0 :: r.1, r.2.1 - d.reset, true)
    else (i :: r.1, r.2.1, false)
  | _, _, p => ([], p, true)

/-- The multi-index increment of `elementwise_binary_op` (`elementwise_binary_op.hpp:85-109`): the
last dimension advances by `chunk`, the others by 1; every advance moves the linear index first
and rewinds afterwards. -/
def odoB (chunk : Int) : List (LoopDim P) → List Int → P → List Int × P × Bool
  | [d], [i], p =>
    let p' := p + chunk • d.stride
    if i + chunk < d.size then ([i + chunk], p', false) else ([0], p' - d.reset, true)
  | d :: ds, i :: is, p =>
    let r := odoB chunk ds is p
    if r.2.2 then
      if i + 1 < d.size then ((i + 1) :: r.1, r.2.1 + d.stride, false)
      else (0 :: r.1, r.2.1 + d.stride - d.reset, true)
    else (i :: r.1, r.2.1, false)
  | _, _, p => ([], p, true)

end

/-! ## Element-wise loops -/

/-- State of the scalar/unary loops: memory, `nd_index`, (input, output) linear indices. -/
abbrev State2 (V : Type) := Heap V × List Int × (Int × Int)

/-- One iteration of the scalar and unary loops: `out[o] = op(a[i])`, then advance. -/
def body2 (op : V → V) (aBlk oBlk : Nat) (ld : List (LoopDim (Int × Int))) (st : State2 V) :
    Outcome (State2 V) := do
  let (h, idx, p) := st
  let v ← h.load aBlk p.1
  let h' ← h.store oBlk p.2 (op v)
  let r := odoA ld idx p
  pure (h', r.1, r.2.1)

/-- Loop dimensions of the scalar loop (`elementwise_scalar_op.hpp:51-54`): rewinds by
`(shape - 1) * stride`, with the input's own shape for the input. -/
def scalarDims (out a : Arr) : List (LoopDim (Int × Int)) :=
  List.zipWith (fun o a =>
    { size := o.size
      stride := (a.stride, o.stride)
      reset := ((a.size - 1) * a.stride, (o.size - 1) * o.stride) }) out.dims a.dims

/-- `elementwise_scalar_op` (`elementwise_scalar_op.hpp:20-60`) with the scalar folded into `op`.
With fewer input than output dimensions the C++ reads its stride vector out of range. -/
def scalarLoop (op : V → V) (h : Heap V) (out a : Arr) : Outcome (Heap V) :=
  if a.dims.length < out.dims.length then .ub
  else do
    let (h', _, _) ← forLoop out.numel.toNat (fun _ st => body2 op a.blk out.blk (scalarDims out a) st)
      (h, out.dims.map (fun _ => 0), (a.base, out.base))
    pure h'

/-- `array op scalar`, e.g. `add_cpu<float>` (`arithmetic_scalar_cpu.cpp:19-87`): a new array of
the input's shape, then the loop. -/
def scalarOp (op : V → V) (h : Heap V) (a : Arr) (junk : Int → V) : Outcome (Heap V × Arr) := do
  let (h1, out) := alloc h a.shape junk
  let h2 ← scalarLoop op h1 out a
  pure (h2, out)

/-- Loop dimensions of the unary loop (`elementwise_unary_op.hpp:36-37,66-67`). -/
def unaryDims (out : Arr) (aShape aStrides : List Int) : List (LoopDim (Int × Int)) :=
  List.zipWith (fun (o : Dim) (a : Int × Int) =>
    { size := o.size
      stride := (a.2, o.stride)
      reset := ((a.1 - 1) * a.2, (o.size - 1) * o.stride) }) out.dims (aShape.zip aStrides)

/-- `elementwise_unary_op` (`elementwise_unary_op.hpp:24-75`): `copy`, `square`, `sqrt`, `abs` into
`out`. The broadcast shape replaces the input shape *before* the strides are computed from it. -/
def unaryLoop (op : V → V) (h : Heap V) (out a : Arr) : Outcome (Heap V) := do
  let aShape ← bcShape a.shape out.shape
  -- `strides[i]` is read for every broadcast dimension whose size is not 1 (line 37)
  let aStrides ←
    if (aShape.drop a.dims.length).any (· ≠ 1) then (.ub : Outcome (List Int))
    else bcStrides aShape a.strides out.shape
  if a.dims.length ≠ out.dims.length then .throws .runtimeError
  else if (aShape.zip out.shape).any (fun s => s.1 ≠ s.2 ∧ s.1 ≠ 1) then .throws .runtimeError
  else do
    let (h', _, _) ← forLoop out.numel.toNat
      (fun _ st => body2 op a.blk out.blk (unaryDims out aShape aStrides) st)
      (h, out.dims.map (fun _ => 0), (a.base, out.base))
    pure h'

/-- `bland::copy(a)` and the other unary operations without an output argument
(`ops.cpp:46-50`): a new array of the same shape. -/
def unaryOp (op : V → V) (h : Heap V) (a : Arr) (junk : Int → V) : Outcome (Heap V × Arr) := do
  let (h1, out) := alloc h a.shape junk
  let h2 ← unaryLoop op h1 out a
  pure (h2, out)

/-- Loop dimensions of `assignment_op` (`assignment_op.hpp:33-43`). -/
def fillDims (out : Arr) : List (LoopDim Int) :=
  out.dims.map fun o => { size := o.size, stride := o.stride, reset := (o.size - 1) * o.stride }

/-- One iteration of `assignment_op`. -/
def fillBody (v : V) (oBlk : Nat) (ld : List (LoopDim Int)) (st : Heap V × List Int × Int) :
    Outcome (Heap V × List Int × Int) := do
  let (h, idx, p) := st
  let h' ← h.store oBlk p v
  let r := odoA ld idx p
  pure (h', r.1, r.2.1)

/-- `fill` / `assignment_op` (`assignment_op.hpp:14-47`); `v` is the value cast to the dtype. -/
def fill (v : V) (h : Heap V) (out : Arr) : Outcome (Heap V) := do
  let (h', _, _) ← forLoop out.numel.toNat (fun _ st => fillBody v out.blk (fillDims out) st)
    (h, out.dims.map (fun _ => 0), out.base)
  pure h'

/-- State of the binary loop: memory, `nd_index`, linear indices of `a`, `b`, `out`. -/
abbrev State3 (V : Type) := Heap V × List Int × (Int × Int × Int)

/-- Loop dimensions of the binary loop (`elementwise_binary_op.hpp:34-39,104-107`): rewinds by
`shape * stride` using the broadcast shapes. -/
def binDims (outDims : List Dim) (aShape aStrides bShape bStrides : List Int) :
    List (LoopDim (Int × Int × Int)) :=
  List.zipWith (fun (o : Dim) (ab : (Int × Int) × (Int × Int)) =>
    { size := o.size
      stride := (ab.1.2, ab.2.2, o.stride)
      reset := (ab.1.1 * ab.1.2, ab.2.1 * ab.2.2, o.size * o.stride) })
    outDims ((aShape.zip aStrides).zip (bShape.zip bStrides))

/-- The work of one iteration: `chunk` consecutive elements along the last dimension
(`elementwise_binary_op.hpp:58-83`). The eight unrolled statements of lines 59-74 are the loop
body of lines 77-81 for `j = 0..7`, so both branches are one loop here. -/
def binChunk (op : V → V → V) (aBlk bBlk oBlk : Nat) (last : Int × Int × Int) (chunk : Nat)
    (p : Int × Int × Int) (h : Heap V) : Outcome (Heap V) :=
  forLoop chunk (fun j h => do
    let x ← h.load aBlk (p.1 + j * last.1)
    let y ← h.load bBlk (p.2.1 + j * last.2.1)
    h.store oBlk (p.2.2 + j * last.2.2) (op x y)) h

/-- The main loop `for (n = 0; n < numel; n += unroll_size)` (`elementwise_binary_op.hpp:54-110`).
`fuel` bounds the number of iterations; running out of it is reported as undefined behaviour, and
the theorems show that `numel` units suffice. -/
def binLoop (op : V → V → V) (aBlk bBlk oBlk : Nat) (ld : List (LoopDim (Int × Int × Int)))
    (lastSize : Int) (lastStride : Int × Int × Int) (numel : Int) :
    Nat → Int → State3 V → Outcome (Heap V)
  | 0, n, (h, _, _) => if n < numel then .ub else .ok h
  | fuel + 1, n, (h, idx, p) =>
    if n < numel then do
      let itemsLeft := (lastSize - 1) - idx.getLastD 0
      let unroll := if itemsLeft ≥ 8 then 8 else 1 + itemsLeft
      let h' ← binChunk op aBlk bBlk oBlk lastStride unroll.toNat p h
      let r := odoB unroll ld idx p
      binLoop op aBlk bBlk oBlk ld lastSize lastStride numel fuel (n + unroll) (h', r.1, r.2.1)
    else .ok h

/-- `elementwise_binary_op` (`elementwise_binary_op.hpp:21-113`). A zero-dimensional output makes
the C++ index its stride vector at -1. -/
def binInto (op : V → V → V) (h : Heap V) (out a b : Arr) : Outcome (Heap V) := do
  let aStrides ← bcStrides a.shape a.strides out.shape
  let bStrides ← bcStrides b.shape b.strides out.shape
  let aShape ← bcShape a.shape out.shape
  let bShape ← bcShape b.shape out.shape
  let ld := binDims out.dims aShape aStrides bShape bStrides
  match ld.getLast? with
  | none => .ub
  | some l =>
    binLoop op a.blk b.blk out.blk ld l.size l.stride out.numel out.numel.toNat 0
      (h, out.dims.map (fun _ => 0), (a.base, b.base, out.base))

/-- The shape check of `elementwise_binary_op_impl_wrapper::call`
(`elementwise_binary_op.hpp:123-137`): only when the ranks agree. -/
def binCheck (a b : Arr) : Bool :=
  a.dims.length = b.dims.length &&
    (a.shape.zip b.shape).any (fun s => s.1 ≠ s.2 ∧ s.1 ≠ 1 ∧ s.2 ≠ 1)

/-- `add_cpu`/`divide_cpu` on two arrays (`arithmetic_cpu.cpp:23-29,58-64`). -/
def binOp (op : V → V → V) (h : Heap V) (a b : Arr) (junk : Int → V) :
    Outcome (Heap V × Arr) := do
  let shape ← expandShapes a.shape b.shape
  let (h1, out) := alloc h shape junk
  if binCheck a b then .throws .runtimeError
  else do
    let h2 ← binInto op h1 out a b
    pure (h2, out)

/-- `subtract_cpu`/`multiply_cpu` on two arrays (`arithmetic_cpu.cpp:36-55`): the output has the
first operand's shape. -/
def binOpLeft (op : V → V → V) (h : Heap V) (a b : Arr) (junk : Int → V) :
    Outcome (Heap V × Arr) := do
  let (h1, out) := alloc h a.shape junk
  if binCheck a b then .throws .runtimeError
  else do
    let h2 ← binInto op h1 out a b
    pure (h2, out)

/-! ## Slicing -/

/-- `slice(a, dim, start, end, stride)` (`ops.cpp:164-195`). A `dim` outside the array makes
`a.size(dim)` throw; a negative `dim` or a zero `stride` is undefined. -/
def slice (a : Arr) (dim : Int) (start stop stride : Int) : Outcome Arr :=
  if dim < 0 then .ub
  else match a.dims[dim.toNat]? with
  | none => .throws .invalidArgument
  | some d =>
    let start' := if start < 0 then d.size + start - 1 else start
    if ¬ start < 0 ∧ start > d.size then .throws .outOfRange
    else
      let stop' := if stop < 0 then d.size + stop - 1 else if stop > d.size then d.size else stop
      if stop' < start' then .throws .runtimeError
      else if stride = 0 then .ub
      else
        let d' : Dim :=
          { size := (stop' - start').tdiv stride
            stride := d.stride * stride
            offset := d.offset + start' * d.stride }
        .ok { a with dims := a.dims.set dim.toNat d' }

/-- `slice_spec` (`bland/bland/include/bland/ops/ops.hpp:40-63`). -/
structure SliceSpec where
  dim : Int
  start : Int
  stop : Int
  stride : Int := 1

/-- `slice(a, spec, specs...)` (`ops.cpp:197-221`): one dimension after the other. -/
def sliceMany (a : Arr) : List SliceSpec → Outcome Arr
  | [] => .ok a
  | s :: ss => do
    let a' ← slice a s.dim s.start s.stop s.stride
    sliceMany a' ss

/-- `ndarray_slice::operator=` (`ndarray_slice.cpp:55-63`): copy the value into the view; `conv` is
the dtype conversion. -/
def assignSlice (conv : V → V) (h : Heap V) (view rhs : Arr) : Outcome (Heap V) :=
  unaryLoop conv h view rhs

/-! ## Shape changes -/

/-- `ndarray::squeeze(axis)` (`ndarray.cpp:635-680`): the shape, stride *and offset* entries of the
axis are dropped. -/
def squeeze (a : Arr) (axis : Int) : Outcome Arr :=
  let ax := if axis < 0 then a.dims.length + axis else axis
  if ax < 0 then .throws .runtimeError
  else if ax > a.dims.length - 1 then .throws .runtimeError
  else match a.dims[ax.toNat]? with
  | none => .ub
  | some d =>
    if d.size ≠ 1 then .throws .runtimeError
    else .ok { a with dims := a.dims.eraseIdx ax.toNat }

/-- `ndarray::unsqueeze(axis)` (`ndarray.cpp:682-706`): outside `0..ndim` the loop reads entry
`ndim` of the shape, stride and offset vectors. -/
def unsqueeze (a : Arr) (axis : Int) : Outcome Arr :=
  if 0 ≤ axis ∧ axis ≤ a.dims.length then
    .ok { a with dims := a.dims.insertIdx axis.toNat { size := 1, stride := 0, offset := 0 } }
  else .ub

/-- The stride loop of `ndarray::reshape` (`ndarray.cpp:608-621`), on reversed lists: `old` are the
strides `[ndim-1] … [1]` still to be used (the loop stops using them at axis 0), `acc` is
`accumulated_stride`. -/
def reshapeStrides : List Int → Int → List Int → List Int
  | _, _, [] => []
  | st :: old, acc, _ :: sizes => st :: reshapeStrides old (acc * st) sizes
  | [], acc, s :: sizes => acc :: reshapeStrides [] (acc * s) sizes

/-- `ndarray::reshape(new_shape)` (`ndarray.cpp:587-633`). All offsets move to the last dimension;
an empty `new_shape` makes `new_offsets.back()` undefined. -/
def reshape (a : Arr) (newShape : List Int) : Outcome Arr :=
  if newShape.foldl (· * ·) 1 ≠ a.numel then .throws .runtimeError
  else if newShape.length = a.dims.length then .throws .runtimeError
  else if newShape = [] then .ub
  else
    let strides := (reshapeStrides (a.strides.drop 1).reverse 1 newShape.reverse).reverse
    let offsets := List.replicate (newShape.length - 1) 0 ++ [a.base]
    .ok { a with dims := List.zipWith (fun (so : Int × Int) o =>
      { size := so.1, stride := so.2, offset := o }) (newShape.zip strides) offsets }

/-! ## Scalar-first operators -/

/-- The operators of the library that take an array and a scalar; `op x s` is what the kernel
computes for element `x` (`arithmetic_cpu_impl.hpp`, `comparison_cpu_impl.hpp:9-44`). -/
structure ScalarOps (V : Type) where
  add : V → V → V
  sub : V → V → V
  mul : V → V → V
  div : V → V → V
  gt : V → V → V
  ge : V → V → V
  lt : V → V → V
  le : V → V → V
  eq : V → V → V
  and : V → V → V

/-- `s + a` (`ndarray.cpp:440-444`) is `a + s`. -/
def scalarAdd (O : ScalarOps V) (s : V) := scalarOp (fun x => O.add x s)
/-- `s - a` (`ndarray.cpp:479-483`) is `a - s`. -/
def scalarSub (O : ScalarOps V) (s : V) := scalarOp (fun x => O.sub x s)
/-- `s * a` (`ndarray.cpp:531-535`) is `a * s`. -/
def scalarMul (O : ScalarOps V) (s : V) := scalarOp (fun x => O.mul x s)
/-- `s / a` (`ndarray.cpp:569-573`) is `a * s`. -/
def scalarDiv (O : ScalarOps V) (s : V) := scalarOp (fun x => O.mul x s)
/-- `s > a` (`comparison_cpu.cpp:19-22`) runs the kernel with the operands exchanged. -/
def scalarGt (O : ScalarOps V) (s : V) := scalarOp (fun x => O.gt x s)
/-- `s >= a` (`comparison_cpu.cpp:66-69`). -/
def scalarGe (O : ScalarOps V) (s : V) := scalarOp (fun x => O.ge x s)
/-- `s < a` (`comparison_cpu.cpp:110-113`). -/
def scalarLt (O : ScalarOps V) (s : V) := scalarOp (fun x => O.lt x s)
/-- `s <= a` (`comparison_cpu.cpp:154-157`). -/
def scalarLe (O : ScalarOps V) (s : V) := scalarOp (fun x => O.le x s)
/-- `s & a` (`comparison_cpu.cpp:198-201`). -/
def scalarAnd (O : ScalarOps V) (s : V) := scalarOp (fun x => O.and x s)
/-- `s == a` (`comparison_cpu.cpp:245-248`). -/
def scalarEq (O : ScalarOps V) (s : V) := scalarOp (fun x => O.eq x s)

end Bliss.Nd
