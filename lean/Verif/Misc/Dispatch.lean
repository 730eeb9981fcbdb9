import Verif.Base
import Mathlib.Data.List.Basic

/-!
# Which element type and which device an operation uses

Arrays carry a run-time element type and a device.  Every operation first chooses, from these
attributes, an implementation (host or CUDA) and a C++ element type for each array, and only
then touches memory.  This file models that choice for the operations of the array library and
for the drift search.  Values and shapes play no role in the choice and are not represented.

* An operation is turned into a list of actions: allocate an array, run host code or a CUDA
  kernel that accesses given arrays at given C++ element types, or throw.
* Actions are executed in a process with one piece of state, the current CUDA device: it is
  changed by allocations only, and kernels run on it.
-/

namespace Bliss.Dispatch

/-! ## Attributes of arrays -/

/-- Element type codes (`DLDataTypeCode`): `other` stands for bfloat, complex, bool, opaque.
bland/bland/include/bland/ndarray.hpp lines 33–54. -/
inductive Code
  | int
  | uint
  | float
  | other
  deriving DecidableEq, Repr

/-- Run-time element type (`DLDataType`).  bland/bland/include/bland/ndarray.hpp lines 33–54. -/
structure DType where
  code : Code
  bits : Nat
  lanes : Nat
  deriving DecidableEq, Repr

/-- Kinds of device (`DLDeviceType`); `other` stands for all kinds bland does not allocate on.
bland/bland/include/bland/ndarray.hpp lines 56–76. -/
inductive Kind
  | cpu
  | cuda
  | cudaHost
  | cudaManaged
  | other
  deriving DecidableEq, Repr

/-- A device: kind and number (`DLDevice`).  bland/bland/ndarray.cpp lines 82–92 compare both. -/
structure Dev where
  kind : Kind
  id : Nat
  deriving DecidableEq, Repr

/-- The attributes of an array that the choice depends on. -/
structure Arr where
  dtype : DType
  dev : Dev
  deriving DecidableEq, Repr

/-- C++ element types for which kernels are instantiated (float, int32_t, int64_t, uint8_t,
uint32_t).  bland/bland/internal/include/internal/dispatcher.hpp lines 61–1107. -/
inductive Elem
  | f32
  | i32
  | i64
  | u8
  | u32
  deriving DecidableEq, Repr

/-- `ndarray::datatype::uint8`.  bland/bland/include/bland/ndarray.hpp line 50. -/
def uint8 : DType := ⟨.uint, 8, 1⟩

/-- `ndarray::datatype::float32`.  bland/bland/include/bland/ndarray.hpp line 42. -/
def float32 : DType := ⟨.float, 32, 1⟩

/-! ## Choice of the C++ element type -/

/-- The switch with float, int32, uint8 and uint32 cases; `none` is the `runtime_error` of the
default branches.  bland/bland/internal/include/internal/dispatcher.hpp lines 61–206 (`dispatch`),
582–629 (`dispatch_scalar`), 953–1000 (`dispatch_summary`).  `lanes` is not looked at. -/
def narrow (t : DType) : Option Elem :=
  match t.code with
  | .float => if t.bits = 32 then some .f32 else none
  | .int => if t.bits = 32 then some .i32 else none
  | .uint => if t.bits = 8 then some .u8 else if t.bits = 32 then some .u32 else none
  | .other => none

/-- The switch that also has an int64 case.
bland/bland/internal/include/internal/dispatcher.hpp lines 369–465 (`dispatch_nd_sc`), 710–809
(`dispatch_new`), 643–694 (`dispatch_new4`), 1006–1107 (`dispatch_new2`). -/
def wide (t : DType) : Option Elem :=
  match t.code with
  | .float => if t.bits = 32 then some .f32 else none
  | .int => if t.bits = 32 then some .i32 else if t.bits = 64 then some .i64 else none
  | .uint => if t.bits = 8 then some .u8 else if t.bits = 32 then some .u32 else none
  | .other => none

/-- `constrained_dispatch_nd` with `NoInt | NoUInt`.
bland/bland/internal/include/internal/dispatcher.hpp lines 827–943. -/
def floatOnly (t : DType) : Option Elem :=
  match t.code with
  | .float => if t.bits = 32 then some .f32 else none
  | _ => none

/-- `constrained_dispatch` with `NoFloat`.
bland/bland/internal/include/internal/dispatcher.hpp lines 214–360. -/
def narrowNoFloat (t : DType) : Option Elem :=
  match t.code with
  | .float => none
  | _ => narrow t

/-- `constrained_dispatch_nd_sc` with `NoFloat`.
bland/bland/internal/include/internal/dispatcher.hpp lines 475–572. -/
def wideNoFloat (t : DType) : Option Elem :=
  match t.code with
  | .float => none
  | _ => wide t

/-! ## Actions -/

/-- What an operation does once it has looked at the attributes. -/
inductive Act
  | alloc (a : Arr)
  | host (acc : List (Arr × Elem))
  | gpu (acc : List (Arr × Elem))
  | fail (e : Err)
  deriving DecidableEq, Repr

/-- Continue with the chosen element type or throw.
bland/bland/internal/include/internal/dispatcher.hpp, the `default:` branches. -/
def withElem (o : Option Elem) (k : Elem → List Act) : List Act :=
  match o with
  | some e => k e
  | none => [.fail .runtimeError]

/-- Run host code or launch a kernel. -/
def access (onGpu : Bool) (acc : List (Arr × Elem)) : Act :=
  if onGpu then .gpu acc else .host acc

/-- The branch on the compute device of `device_dispatch` (also written out in `fft` and
`fft_shift_mag_square`): `built` says whether the library was built with CUDA.
bland/bland/ops/device_dispatch.hpp lines 31–45; bland/bland/ops/frequency.cpp lines 35–44. -/
def onDevice (built : Bool) (d : Dev) (k : Bool → List Act) : List Act :=
  match d.kind with
  | .cpu => k false
  | .cudaHost => k false
  | .cuda => if built then k true else [.fail .runtimeError]
  | .cudaManaged => if built then k true else [.fail .runtimeError]
  | .other => [.fail .runtimeError]

/-- `device_dispatch` for two arrays: they must be on the same device.
bland/bland/ops/device_dispatch.hpp lines 17–22. -/
def onSame (built : Bool) (a b : Dev) (k : Bool → List Act) : List Act :=
  if a = b then onDevice built b k else [.fail .runtimeError]

/-- The branch of the reductions, `fill` and `count_true`: pinned host arrays are refused.
bland/bland/ops/statistical.cpp lines 53–62 (and the same in each reduction), 411–422;
bland/bland/ops/ops.cpp lines 265–278. -/
def onDeviceStrict (built : Bool) (d : Dev) (k : Bool → List Act) : List Act :=
  match d.kind with
  | .cpu => k false
  | .cuda => if built then k true else [.fail .runtimeError]
  | .cudaManaged => if built then k true else [.fail .runtimeError]
  | .cudaHost => [.fail .runtimeError]
  | .other => [.fail .runtimeError]

/-- `throw` unless a condition holds. -/
def guard (c : Bool) (k : List Act) : List Act := if c then k else [.fail .runtimeError]

/-! ## Operations -/

/-- Element-wise array arithmetic.  bland/bland/ops/arithmetic.cpp lines 22–110;
bland/bland/ops/cpu/arithmetic_cpu.cpp lines 21–67; bland/bland/ops/cuda/arithmetic_cuda.cu lines
20–66: the result has the type of `a`; all three arrays go through the switch. -/
def arith (built : Bool) (a b : Arr) : List Act :=
  onSame built a.dev b.dev fun g =>
    .alloc a ::
      withElem (narrow a.dtype) fun eo => withElem (narrow a.dtype) fun ea =>
        withElem (narrow b.dtype) fun eb => [access g [(a, eo), (a, ea), (b, eb)]]

/-- Arithmetic with a scalar.  bland/bland/ops/cpu/arithmetic_scalar_cpu.cpp lines 20–77;
bland/bland/ops/cuda/arithmetic_scalar_cuda.cu lines 22–79. -/
def arithScalar (built : Bool) (a : Arr) : List Act :=
  onDevice built a.dev fun g =>
    .alloc a ::
      withElem (wide a.dtype) fun eo => withElem (wide a.dtype) fun ea =>
        [access g [(a, eo), (a, ea)]]

/-- Comparison of arrays (`logical` for `&`).  bland/bland/ops/comparison.cpp lines 18–27 (and the
others); bland/bland/ops/cpu/comparison_cpu.cpp lines 26–30;
bland/bland/ops/cuda/comparison_cuda.cu lines 26–30, 199–211. -/
def compare (built logical : Bool) (a b : Arr) : List Act :=
  onSame built a.dev b.dev fun g =>
    let out : Arr := ⟨uint8, a.dev⟩
    let pick := if g && logical then narrowNoFloat else narrow
    .alloc out ::
      withElem (pick a.dtype) fun ea => withElem (pick b.dtype) fun eb =>
        [access g [(out, .u8), (a, ea), (b, eb)]]

/-- Comparison with a scalar.  bland/bland/ops/cpu/comparison_cpu.cpp lines 20–25;
bland/bland/ops/cuda/comparison_cuda.cu lines 20–25, 200–206. -/
def compareScalar (built logical : Bool) (a : Arr) : List Act :=
  onDevice built a.dev fun g =>
    let out : Arr := ⟨uint8, a.dev⟩
    let pick := if g && logical then wideNoFloat else wide
    .alloc out :: withElem (pick a.dtype) fun ea => [access g [(out, .u8), (a, ea)]]

/-- `copy`, `square`, `sqrt`, `abs` into a given array.  bland/bland/ops/ops.cpp lines 53–61,
292–331; bland/bland/ops/cpu/ops_cpu.cpp lines 74–88; bland/bland/ops/cuda/ops_cuda.cu lines
17–31. -/
def unaryInto (built : Bool) (a out : Arr) : List Act :=
  onSame built a.dev out.dev fun g =>
    withElem (wide out.dtype) fun eo => withElem (wide a.dtype) fun ea =>
      [access g [(out, eo), (a, ea)]]

/-- `copy`, `square`, `sqrt` into a new array.  bland/bland/ops/ops.cpp lines 48–51, 302–305,
318–321. -/
def unary (built : Bool) (a : Arr) : List Act := .alloc a :: unaryInto built a a

/-- `abs` into a new array: the host implementation is called whatever the device.
bland/bland/ops/ops.cpp lines 333–336. -/
def abs (a : Arr) : List Act :=
  .alloc a ::
    withElem (wide a.dtype) fun eo => withElem (wide a.dtype) fun ea =>
      [access false [(a, eo), (a, ea)]]

/-- `fill`.  bland/bland/ops/ops.cpp lines 265–278; bland/bland/ops/cpu/ops_cpu.cpp lines 90–93;
bland/bland/ops/cuda/ops_cuda.cu lines 112–115. -/
def fill (built : Bool) (out : Arr) : List Act :=
  onDeviceStrict built out.dev fun g => withElem (narrow out.dtype) fun eo => [access g [(out, eo)]]

/-- `sum`, `mean`, `stddev` into a given array.  bland/bland/ops/statistical.cpp lines 65–86,
151–173, 369–390; bland/bland/ops/cpu/statistical_cpu.cpp lines 241–243, 355–357, 1012–1014;
bland/bland/ops/cuda/statistical_cuda.cu lines 1532–1551. -/
def reduceInto (built : Bool) (a out : Arr) : List Act :=
  guard (out.dev = a.dev) <| onDeviceStrict built a.dev fun g =>
    let pick := if g then floatOnly else wide
    withElem (pick out.dtype) fun eo => withElem (pick a.dtype) fun ea =>
      [access g [(out, eo), (a, ea)]]

/-- `sum`, `mean`, `stddev` into a new array.  bland/bland/ops/statistical.cpp lines 88–104,
174–190, 392–408. -/
def reduce (built : Bool) (a : Arr) : List Act := .alloc a :: reduceInto built a a

/-- `max` into a given array.  bland/bland/ops/statistical.cpp lines 42–63;
bland/bland/ops/cpu/statistical_cpu.cpp lines 1160–1162 (`dispatch_new4`: both types must agree);
bland/bland/ops/cuda/statistical_cuda.cu lines 1526–1530. -/
def maxInto (built : Bool) (a out : Arr) : List Act :=
  guard (out.dev = a.dev) <| onDeviceStrict built a.dev fun g =>
    if g then
      withElem (floatOnly out.dtype) fun eo => withElem (floatOnly a.dtype) fun ea =>
        [access g [(out, eo), (a, ea)]]
    else
      guard (a.dtype = out.dtype) <| withElem (wide a.dtype) fun ea =>
        [access g [(out, ea), (a, ea)]]

/-- `max` into a new array.  bland/bland/ops/statistical.cpp lines 24–40. -/
def max (built : Bool) (a : Arr) : List Act := .alloc a :: maxInto built a a

/-- The test of the mask's type: it throws only if the code *and* the width are wrong.
bland/bland/ops/cpu/statistical_cpu.cpp lines 150–152, 381–383, 637–639. -/
def maskAccepted (m : DType) : Bool := !(m.code != .uint && m.bits != 8)

/-- `masked_mean`, `masked_stddev` into a given array: host code tests the mask's type, CUDA code
does not.  bland/bland/ops/statistical.cpp lines 106–131, 192–217;
bland/bland/ops/cpu/statistical_cpu.cpp lines 122–154, 246–248, 490–492;
bland/bland/ops/cuda/statistical_cuda.cu lines 1260, 1536–1555. -/
def maskedInto (built : Bool) (a mask out : Arr) : List Act :=
  guard (out.dev = a.dev) <| guard (mask.dev = a.dev) <| onDeviceStrict built a.dev fun g =>
    let pick := if g then floatOnly else wide
    withElem (pick out.dtype) fun eo => withElem (pick a.dtype) fun ea =>
      guard (g || maskAccepted mask.dtype) [access g [(out, eo), (a, ea), (mask, .u8)]]

/-- `masked_mean`, `masked_stddev` into a new array.  bland/bland/ops/statistical.cpp lines
133–149, 219–235. -/
def masked (built : Bool) (a mask : Arr) : List Act := .alloc a :: maskedInto built a mask a

/-- `mean_stddev` into given arrays: no switch on the type, everything is `float`.
bland/bland/ops/statistical.cpp lines 237–259; bland/bland/ops/cpu/statistical_cpu.cpp lines
494–530; bland/bland/ops/cuda/statistical_cuda.cu lines 1375–1440. -/
def meanStddevInto (built : Bool) (a om os : Arr) : List Act :=
  guard (om.dev = a.dev && os.dev = a.dev) <| onDeviceStrict built a.dev fun g =>
    [access g [(om, .f32), (os, .f32), (a, .f32)]]

/-- `mean_stddev` into new arrays.  bland/bland/ops/statistical.cpp lines 260–277. -/
def meanStddev (built : Bool) (a : Arr) : List Act :=
  .alloc a :: .alloc a :: meanStddevInto built a a a

/-- `masked_mean_stddev` into given arrays.  bland/bland/ops/statistical.cpp lines 279–304;
bland/bland/ops/cpu/statistical_cpu.cpp lines 608–644; bland/bland/ops/cuda/statistical_cuda.cu
lines 1443–1513. -/
def maskedMeanStddevInto (built : Bool) (a mask om os : Arr) : List Act :=
  guard (om.dev = a.dev && os.dev = a.dev) <| guard (mask.dev = a.dev) <|
    onDeviceStrict built a.dev fun g =>
      guard (g || maskAccepted mask.dtype)
        [access g [(om, .f32), (os, .f32), (a, .f32), (mask, .u8)]]

/-- `masked_mean_stddev` into new arrays.  bland/bland/ops/statistical.cpp lines 306–323. -/
def maskedMeanStddev (built : Bool) (a mask : Arr) : List Act :=
  .alloc a :: .alloc a :: maskedMeanStddevInto built a mask a a

/-- `var`: standard deviation, then `square` of it.  bland/bland/ops/statistical.cpp lines
330–333. -/
def var (built : Bool) (a : Arr) : List Act := reduce built a ++ unary built a

/-- `standardized_moment` into a given array: always host code.  bland/bland/ops/statistical.cpp
lines 344–346; bland/bland/ops/cpu/statistical_cpu.cpp lines 756–790, 885–887: an array of means is
allocated like `out`. -/
def momentInto (a out : Arr) : List Act :=
  withElem (wide out.dtype) fun eo => withElem (wide a.dtype) fun ea =>
    [.alloc out, .host [(out, eo), (out, eo), (a, ea)]]

/-- `standardized_moment` into a new array.  bland/bland/ops/statistical.cpp lines 347–363. -/
def moment (a : Arr) : List Act := .alloc a :: momentInto a a

/-- `median`: a host copy of the array, then read as `float`.  bland/bland/ops/statistical.cpp lines
365–367; bland/bland/ops/cpu/statistical_cpu.cpp lines 891–916. -/
def median (a : Arr) : List Act :=
  .alloc a ::
    withElem (wide a.dtype) fun eo => withElem (wide a.dtype) fun ea =>
      [.host [(a, eo), (a, ea)], .host [(a, .f32)]]

/-- `count_true`.  bland/bland/ops/statistical.cpp lines 410–424;
bland/bland/ops/cpu/statistical_cpu.cpp lines 1164–1167; bland/bland/ops/cuda/statistical_cuda.cu
lines 1573–1575. -/
def countTrue (built : Bool) (a : Arr) : List Act :=
  onDeviceStrict built a.dev fun g => withElem (narrow a.dtype) fun ea => [access g [(a, ea)]]

/-- `fft_shift_mag_square`: only float32 with one lane.  bland/bland/ops/frequency.cpp lines
24–45. -/
def power (built : Bool) (a : Arr) : List Act :=
  guard (a.dtype = float32) <| .alloc a :: onDevice built a.dev fun g =>
    [access g [(a, .f32), (a, .f32)]]

/-- `to`: nothing if already there, otherwise a new array and a byte copy.
bland/bland/ops/ops.cpp lines 63–72.  Simplified: the byte copy, which looks at no element type and
runs on no CUDA device's kernels, and the refusals after the allocation are not represented. -/
def toDev (a : Arr) (d : Dev) : List Act := if a.dev = d then [] else [.alloc ⟨a.dtype, d⟩]

/-- `integrate_drifts` of a coarse channel: samples as `float`, mask as `uint8_t`; result like the
samples, three flag planes on the mask's device.
bliss/drift_search/integrate_drifts.cpp lines 50–69;
bliss/drift_search/kernels/drift_integration_cpu.cpp lines 16–46;
bliss/drift_search/kernels/drift_integration_cuda.cu lines 115–170.  Simplified: for device kinds
other than CPU and CUDA the code falls back on whole-array operations, which is not represented
(no action). -/
def integrate (built : Bool) (data mask : Arr) : List Act :=
  let flags : Arr := ⟨uint8, mask.dev⟩
  let accs := [(data, Elem.f32), (mask, .u8), (data, .f32), (flags, .u8), (flags, .u8), (flags, .u8)]
  match data.dev.kind with
  | .cpu => [.alloc data, .alloc flags, .alloc flags, .alloc flags, .host accs]
  | .cuda =>
    if built then
      .alloc data :: .alloc flags :: .alloc flags :: .alloc flags ::
        (fill built data ++ [.gpu accs])
    else []
  | _ => []

/-- Search of a drift plane for components or maxima, with its three flag planes.
bliss/drift_search/connected_components.cpp lines 20–39; bliss/drift_search/local_maxima.cpp lines
16–37; bliss/drift_search/kernels/connected_components_cuda.cu lines 336–470. -/
def find (built : Bool) (plane flags : Arr) : List Act :=
  let accs := [(plane, Elem.f32), (flags, .u8)]
  match plane.dev.kind with
  | .cpu => [.host accs]
  | .cuda => if built then [.gpu accs] else [.fail .runtimeError]
  | _ => [.fail .runtimeError]

/-- Calls of the API. -/
inductive Call
  | create (a : Arr)
  | toDev (a : Arr) (d : Dev)
  | arith (a b : Arr)
  | arithScalar (a : Arr)
  | compare (logical : Bool) (a b : Arr)
  | compareScalar (logical : Bool) (a : Arr)
  | unary (a : Arr)
  | unaryInto (a out : Arr)
  | abs (a : Arr)
  | fill (out : Arr)
  | reduce (a : Arr)
  | reduceInto (a out : Arr)
  | max (a : Arr)
  | maxInto (a out : Arr)
  | masked (a mask : Arr)
  | maskedInto (a mask out : Arr)
  | meanStddev (a : Arr)
  | meanStddevInto (a om os : Arr)
  | maskedMeanStddev (a mask : Arr)
  | maskedMeanStddevInto (a mask om os : Arr)
  | var (a : Arr)
  | moment (a : Arr)
  | momentInto (a out : Arr)
  | median (a : Arr)
  | countTrue (a : Arr)
  | power (a : Arr)
  | integrate (data mask : Arr)
  | find (plane flags : Arr)
  deriving DecidableEq, Repr

/-- The actions of a call (the functions above). -/
def Call.acts (built : Bool) : Call → List Act
  | .create a => [.alloc a]
  | .toDev a d => Dispatch.toDev a d
  | .arith a b => Dispatch.arith built a b
  | .arithScalar a => Dispatch.arithScalar built a
  | .compare l a b => Dispatch.compare built l a b
  | .compareScalar l a => Dispatch.compareScalar built l a
  | .unary a => Dispatch.unary built a
  | .unaryInto a o => Dispatch.unaryInto built a o
  | .abs a => Dispatch.abs a
  | .fill o => Dispatch.fill built o
  | .reduce a => Dispatch.reduce built a
  | .reduceInto a o => Dispatch.reduceInto built a o
  | .max a => Dispatch.max built a
  | .maxInto a o => Dispatch.maxInto built a o
  | .masked a m => Dispatch.masked built a m
  | .maskedInto a m o => Dispatch.maskedInto built a m o
  | .meanStddev a => Dispatch.meanStddev built a
  | .meanStddevInto a om os => Dispatch.meanStddevInto built a om os
  | .maskedMeanStddev a m => Dispatch.maskedMeanStddev built a m
  | .maskedMeanStddevInto a m om os => Dispatch.maskedMeanStddevInto built a m om os
  | .var a => Dispatch.var built a
  | .moment a => Dispatch.moment a
  | .momentInto a o => Dispatch.momentInto a o
  | .median a => Dispatch.median a
  | .countTrue a => Dispatch.countTrue built a
  | .power a => Dispatch.power built a
  | .integrate d m => Dispatch.integrate built d m
  | .find p f => Dispatch.find built p f

/-! ## Execution -/

/-- Where code runs. -/
inductive Place
  | host
  | gpu (id : Nat)
  deriving DecidableEq, Repr

/-- Code that ran: where, and which arrays it accessed at which C++ element type. -/
structure Launch where
  place : Place
  acc : List (Arr × Elem)
  deriving DecidableEq, Repr

/-- Allocation of an array: the current CUDA device afterwards, or `none` for an exception.
bland/bland/bland_tensor_internals.cpp lines 79–140: `cudaSetDevice` is called for the three CUDA
kinds and nowhere else.  Simplified: memory does not run out and device numbers exist. -/
def allocate (built : Bool) (cur : Nat) (d : Dev) : Option Nat :=
  match d.kind with
  | .cpu => some cur
  | .cuda => if built then some d.id else none
  | .cudaHost => if built then some d.id else none
  | .cudaManaged => if built then some d.id else none
  | .other => none

/-- Execution of actions in a process whose current CUDA device is `cur`: code that ran, current
device afterwards, exception.  Kernels run on the current device
(bland/bland/bland_tensor_internals.cpp lines 93, 110, 126 are the only calls of
`cudaSetDevice` in the repository). -/
def exec (built : Bool) : Nat → List Act → List Launch × Nat × Option Err
  | cur, [] => ([], cur, none)
  | cur, .alloc a :: rest =>
    match allocate built cur a.dev with
    | some cur' => exec built cur' rest
    | none => ([], cur, some .runtimeError)
  | cur, .host acc :: rest =>
    let r := exec built cur rest
    (⟨.host, acc⟩ :: r.1, r.2)
  | cur, .gpu acc :: rest =>
    let r := exec built cur rest
    (⟨.gpu cur, acc⟩ :: r.1, r.2)
  | cur, .fail e :: _ => ([], cur, some e)

/-- One call. -/
def run (built : Bool) (cur : Nat) (c : Call) : List Launch × Nat × Option Err :=
  exec built cur (c.acts built)

/-- A history of calls, exceptions being caught by the caller: all code that ran. -/
def history (built : Bool) : Nat → List Call → List Launch
  | _, [] => []
  | cur, c :: rest => (run built cur c).1 ++ history built (run built cur c).2.1 rest

/-! ## Specification -/

/-- The C++ type `e` is the type in which elements described by `t` are stored. -/
def Matches (e : Elem) (t : DType) : Prop :=
  match e with
  | .f32 => t.code = .float ∧ t.bits = 32
  | .i32 => t.code = .int ∧ t.bits = 32
  | .i64 => t.code = .int ∧ t.bits = 64
  | .u8 => t.code = .uint ∧ t.bits = 8
  | .u32 => t.code = .uint ∧ t.bits = 32

/-- Code accesses every array at the type of its elements. -/
def Typed (l : Launch) : Prop := ∀ p ∈ l.acc, Matches p.2 p.1.dtype

/-- Memory of a device can be accessed from a place: host code reaches host, pinned and managed
memory; a kernel reaches its own device's memory, managed and pinned memory. -/
def Reachable (d : Dev) : Place → Prop
  | .host => d.kind = .cpu ∨ d.kind = .cudaHost ∨ d.kind = .cudaManaged
  | .gpu n => (d.kind = .cuda ∧ d.id = n) ∨ d.kind = .cudaManaged ∨ d.kind = .cudaHost

/-- Code accesses only memory it can reach. -/
def Placed (l : Launch) : Prop := ∀ p ∈ l.acc, Reachable p.1.dev l.place

/-- The masked reductions and `mean_stddev`, `median`, and the drift search do not derive the C++
type of every array from its element type. -/
def Call.Unchecked : Call → Prop
  | .masked _ _ | .maskedInto _ _ _ | .meanStddev _ | .meanStddevInto _ _ _
  | .maskedMeanStddev _ _ | .maskedMeanStddevInto _ _ _ _ | .median _
  | .integrate _ _ | .find _ _ => True
  | _ => False

/-- What those calls assume. -/
def Call.Assumes : Call → Prop
  | .masked _ m | .maskedInto _ m _ => Matches .u8 m.dtype
  | .meanStddev a => Matches .f32 a.dtype
  | .meanStddevInto a om os =>
    Matches .f32 a.dtype ∧ Matches .f32 om.dtype ∧ Matches .f32 os.dtype
  | .maskedMeanStddev a m => Matches .f32 a.dtype ∧ Matches .u8 m.dtype
  | .maskedMeanStddevInto a m om os =>
    Matches .f32 a.dtype ∧ Matches .f32 om.dtype ∧ Matches .f32 os.dtype ∧ Matches .u8 m.dtype
  | .median a => Matches .f32 a.dtype
  | .integrate d m => Matches .f32 d.dtype ∧ Matches .u8 m.dtype
  | .find p f => Matches .f32 p.dtype ∧ Matches .u8 f.dtype
  | _ => True

/-! ## Element types -/

theorem narrow_matches {t : DType} {e : Elem} (h : narrow t = some e) : Matches e t := by
  unfold narrow at h
  split at h <;> (try split at h) <;> (try split at h) <;> simp_all <;> subst h <;>
    simp_all [Matches]

theorem wide_matches {t : DType} {e : Elem} (h : wide t = some e) : Matches e t := by
  unfold wide at h
  split at h <;> (try split at h) <;> (try split at h) <;> simp_all <;> subst h <;>
    simp_all [Matches]

theorem floatOnly_matches {t : DType} {e : Elem} (h : floatOnly t = some e) : Matches e t := by
  unfold floatOnly at h
  split at h <;> (try split at h) <;> simp_all <;> subst h <;> simp_all [Matches]

theorem narrowNoFloat_matches {t : DType} {e : Elem} (h : narrowNoFloat t = some e) :
    Matches e t := by
  unfold narrowNoFloat at h
  split at h
  · cases h
  · exact narrow_matches h

theorem wideNoFloat_matches {t : DType} {e : Elem} (h : wideNoFloat t = some e) :
    Matches e t := by
  unfold wideNoFloat at h
  split at h
  · cases h
  · exact wide_matches h

/-- Accesses in a list of actions satisfy `P`. -/
def AllAcc (P : List (Arr × Elem) → Prop) (acts : List Act) : Prop :=
  ∀ x ∈ acts, match x with
    | .host acc | .gpu acc => P acc
    | _ => True

theorem AllAcc.nil {P} : AllAcc P [] := by intro x hx; cases hx

theorem AllAcc.cons_alloc {P a r} (h : AllAcc P r) : AllAcc P (.alloc a :: r) := by
  intro x hx
  rcases List.mem_cons.1 hx with rfl | hx
  · trivial
  · exact h x hx

theorem AllAcc.fail {P e} : AllAcc P [.fail e] := by
  intro x hx; rw [List.mem_singleton.1 hx]; trivial

theorem AllAcc.access {P g acc} (h : P acc) : AllAcc P [Dispatch.access g acc] := by
  intro x hx
  rw [List.mem_singleton.1 hx]
  unfold Dispatch.access
  cases g <;> exact h

theorem AllAcc.append {P r s} (h : AllAcc P r) (h' : AllAcc P s) : AllAcc P (r ++ s) := by
  intro x hx
  rcases List.mem_append.1 hx with hx | hx
  · exact h x hx
  · exact h' x hx

theorem AllAcc.withElem {P o k} (h : ∀ e, o = some e → AllAcc P (k e)) :
    AllAcc P (Dispatch.withElem o k) := by
  unfold Dispatch.withElem
  split
  · exact h _ rfl
  · exact .fail

theorem AllAcc.guard {P} {c : Bool} {k} (h : c = true → AllAcc P k) :
    AllAcc P (Dispatch.guard c k) := by
  unfold Dispatch.guard
  split
  · next hc => exact h hc
  · exact .fail

theorem AllAcc.onDevice {P built d k} (h : ∀ g, AllAcc P (k g)) :
    AllAcc P (Dispatch.onDevice built d k) := by
  unfold Dispatch.onDevice
  split <;> (try split) <;> first | exact h _ | exact .fail

theorem AllAcc.onSame {P built a b k} (h : ∀ g, AllAcc P (k g)) :
    AllAcc P (Dispatch.onSame built a b k) := by
  unfold Dispatch.onSame
  split
  · exact .onDevice h
  · exact .fail

theorem AllAcc.onDeviceStrict {P built d k} (h : ∀ g, AllAcc P (k g)) :
    AllAcc P (Dispatch.onDeviceStrict built d k) := by
  unfold Dispatch.onDeviceStrict
  split <;> (try split) <;> first | exact h _ | exact .fail

/-- Everything that runs was listed. -/
theorem exec_acc {P : List (Arr × Elem) → Prop} {built : Bool} {acts : List Act}
    (h : AllAcc P acts) (cur : Nat) : ∀ l ∈ (exec built cur acts).1, P l.acc := by
  induction acts generalizing cur with
  | nil => intro l hl; cases hl
  | cons x r ih =>
    have hr : AllAcc P r := fun y hy => h y (List.mem_cons_of_mem _ hy)
    have hx := h x (List.mem_cons_self ..)
    cases x with
    | alloc a =>
      unfold exec
      split
      · exact ih hr _
      · intro l hl; cases hl
    | host acc =>
      intro l hl
      rcases List.mem_cons.1 hl with rfl | hl
      · exact hx
      · exact ih hr _ l hl
    | gpu acc =>
      intro l hl
      rcases List.mem_cons.1 hl with rfl | hl
      · exact hx
      · exact ih hr _ l hl
    | fail e => intro l hl; cases hl

/-- Arrays accessed at the type of their elements. -/
abbrev TypedAcc (acc : List (Arr × Elem)) : Prop := ∀ p ∈ acc, Matches p.2 p.1.dtype

theorem typed2 {a b : Arr} {e f : Elem} (h : Matches e a.dtype) (h' : Matches f b.dtype) :
    TypedAcc [(a, e), (b, f)] := by
  intro p hp
  simp only [List.mem_cons, List.not_mem_nil, or_false] at hp
  rcases hp with rfl | rfl
  · exact h
  · exact h'

theorem typed1 {a : Arr} {e : Elem} (h : Matches e a.dtype) : TypedAcc [(a, e)] := by
  intro p hp
  rw [List.mem_singleton.1 hp]
  exact h

theorem typedCons {a : Arr} {e : Elem} {r} (h : Matches e a.dtype) (h' : TypedAcc r) :
    TypedAcc ((a, e) :: r) := by
  intro p hp
  rcases List.mem_cons.1 hp with rfl | hp
  · exact h
  · exact h' p hp

theorem pick_matches {g : Bool} {t : DType} {e : Elem}
    (h : (if g = true then floatOnly else wide) t = some e) : Matches e t := by
  cases g
  · exact wide_matches h
  · exact floatOnly_matches h

theorem pickN_matches {c : Bool} {t : DType} {e : Elem}
    (h : (if c = true then narrowNoFloat else narrow) t = some e) : Matches e t := by
  cases c
  · exact narrow_matches h
  · exact narrowNoFloat_matches h

theorem pickW_matches {c : Bool} {t : DType} {e : Elem}
    (h : (if c = true then wideNoFloat else wide) t = some e) : Matches e t := by
  cases c
  · exact wide_matches h
  · exact wideNoFloat_matches h

theorem unaryInto_typed (built : Bool) (a o : Arr) :
    AllAcc TypedAcc (unaryInto built a o) :=
  .onSame fun _ => .withElem fun _ h => .withElem fun _ h' =>
    .access (typed2 (wide_matches h) (wide_matches h'))

theorem reduceInto_typed (built : Bool) (a o : Arr) :
    AllAcc TypedAcc (reduceInto built a o) :=
  .guard fun _ => .onDeviceStrict fun _ => .withElem fun _ h => .withElem fun _ h' =>
    .access (typed2 (pick_matches h) (pick_matches h'))

theorem fill_typed (built : Bool) (o : Arr) : AllAcc TypedAcc (fill built o) :=
  .onDeviceStrict fun _ => .withElem fun _ h => .access (typed1 (narrow_matches h))

theorem maxInto_typed (built : Bool) (a o : Arr) : AllAcc TypedAcc (maxInto built a o) := by
  refine .guard fun _ => .onDeviceStrict fun g => ?_
  cases g
  · exact .guard fun hd => .withElem fun e h =>
      .access (typed2 (by rw [← of_decide_eq_true hd]; exact wide_matches h) (wide_matches h))
  · exact .withElem fun _ h => .withElem fun _ h' =>
      .access (typed2 (floatOnly_matches h) (floatOnly_matches h'))

theorem momentInto_typed (a o : Arr) : AllAcc TypedAcc (momentInto a o) :=
  .withElem fun _ h => .withElem fun _ h' => .cons_alloc
    (AllAcc.access (g := false) (typedCons (wide_matches h) (typed2 (wide_matches h)
      (wide_matches h'))))

theorem maskedInto_typed (built : Bool) (a m o : Arr) (hm : Matches .u8 m.dtype) :
    AllAcc TypedAcc (maskedInto built a m o) :=
  .guard fun _ => .guard fun _ => .onDeviceStrict fun _ => .withElem fun _ h =>
    .withElem fun _ h' => .guard fun _ =>
      .access (typedCons (pick_matches h) (typed2 (pick_matches h') hm))

theorem meanStddevInto_typed (built : Bool) (a om os : Arr) (ha : Matches .f32 a.dtype)
    (hm : Matches .f32 om.dtype) (hs : Matches .f32 os.dtype) :
    AllAcc TypedAcc (meanStddevInto built a om os) :=
  .guard fun _ => .onDeviceStrict fun _ => .access (typedCons hm (typed2 hs ha))

theorem maskedMeanStddevInto_typed (built : Bool) (a m om os : Arr) (ha : Matches .f32 a.dtype)
    (hm : Matches .f32 om.dtype) (hs : Matches .f32 os.dtype) (hk : Matches .u8 m.dtype) :
    AllAcc TypedAcc (maskedMeanStddevInto built a m om os) :=
  .guard fun _ => .guard fun _ => .onDeviceStrict fun _ => .guard fun _ =>
    .access (typedCons hm (typedCons hs (typed2 ha hk)))

theorem uint8_matches : Matches .u8 uint8 := ⟨rfl, rfl⟩

theorem acts_typed (built : Bool) (c : Call) (h : c.Assumes) :
    AllAcc TypedAcc (c.acts built) := by
  cases c with
  | create a => exact .cons_alloc .nil
  | toDev a d =>
    change AllAcc _ (Dispatch.toDev a d)
    unfold Dispatch.toDev
    split
    · exact .nil
    · exact .cons_alloc .nil
  | arith a b =>
    exact .onSame fun _ => .cons_alloc (.withElem fun _ h => .withElem fun _ h' =>
      .withElem fun _ h'' => .access (typedCons (narrow_matches h)
        (typed2 (narrow_matches h') (narrow_matches h''))))
  | arithScalar a =>
    change AllAcc _ (Dispatch.arithScalar built a)
    unfold Dispatch.arithScalar
    exact .onDevice fun _ => .cons_alloc (.withElem fun _ h => .withElem fun _ h' =>
      .access (typed2 (wide_matches h) (wide_matches h')))
  | compare l a b =>
    change AllAcc _ (Dispatch.compare built l a b)
    unfold Dispatch.compare
    exact .onSame fun _ => .cons_alloc (.withElem fun _ h => .withElem fun _ h' =>
      .access (typedCons (a := ⟨uint8, a.dev⟩) uint8_matches
        (typed2 (pickN_matches h) (pickN_matches h'))))
  | compareScalar l a =>
    change AllAcc _ (Dispatch.compareScalar built l a)
    unfold Dispatch.compareScalar
    exact .onDevice fun _ => .cons_alloc (.withElem fun _ h =>
      .access (typed2 (a := ⟨uint8, a.dev⟩) uint8_matches (pickW_matches h)))
  | unary a => exact .cons_alloc (unaryInto_typed built a a)
  | unaryInto a o => exact unaryInto_typed built a o
  | abs a =>
    exact .cons_alloc (.withElem fun _ h => .withElem fun _ h' =>
      .access (typed2 (wide_matches h) (wide_matches h')))
  | fill o => exact fill_typed built o
  | reduce a => exact .cons_alloc (reduceInto_typed built a a)
  | reduceInto a o => exact reduceInto_typed built a o
  | max a => exact .cons_alloc (maxInto_typed built a a)
  | maxInto a o => exact maxInto_typed built a o
  | masked a m => exact .cons_alloc (maskedInto_typed built a m a h)
  | maskedInto a m o => exact maskedInto_typed built a m o h
  | meanStddev a =>
    exact .cons_alloc (.cons_alloc (meanStddevInto_typed built a a a h h h))
  | meanStddevInto a om os => exact meanStddevInto_typed built a om os h.1 h.2.1 h.2.2
  | maskedMeanStddev a m =>
    exact .cons_alloc (.cons_alloc (maskedMeanStddevInto_typed built a m a a h.1 h.1 h.1 h.2))
  | maskedMeanStddevInto a m om os =>
    exact maskedMeanStddevInto_typed built a m om os h.1 h.2.1 h.2.2.1 h.2.2.2
  | var a =>
    exact .append (.cons_alloc (reduceInto_typed built a a))
      (.cons_alloc (unaryInto_typed built a a))
  | moment a => exact .cons_alloc (momentInto_typed a a)
  | momentInto a o => exact momentInto_typed a o
  | median a =>
    refine .cons_alloc (.withElem fun _ h1 => .withElem fun _ h2 => ?_)
    exact .append (s := [Act.host [(a, .f32)]])
      (AllAcc.access (g := false) (typed2 (wide_matches h1) (wide_matches h2)))
      (AllAcc.access (g := false) (typed1 h))
  | countTrue a =>
    change AllAcc _ (Dispatch.countTrue built a)
    unfold Dispatch.countTrue
    exact .onDeviceStrict fun _ => .withElem fun _ h => .access (typed1 (narrow_matches h))
  | power a =>
    refine .guard fun hd => .cons_alloc (.onDevice fun _ => .access ?_)
    have : Matches .f32 a.dtype := by rw [of_decide_eq_true hd]; exact ⟨rfl, rfl⟩
    exact typed2 this this
  | integrate d m =>
    change AllAcc _ (Dispatch.integrate built d m)
    have hf : TypedAcc [(d, Elem.f32), (m, .u8), (d, .f32), ((⟨uint8, m.dev⟩ : Arr), .u8),
        (⟨uint8, m.dev⟩, .u8), (⟨uint8, m.dev⟩, .u8)] :=
      typedCons h.1 (typedCons h.2 (typedCons h.1 (typedCons ⟨rfl, rfl⟩
        (typed2 ⟨rfl, rfl⟩ ⟨rfl, rfl⟩))))
    unfold Dispatch.integrate
    split
    · exact .cons_alloc (.cons_alloc (.cons_alloc (.cons_alloc (AllAcc.access (g := false) hf))))
    · split
      · exact .cons_alloc (.cons_alloc (.cons_alloc (.cons_alloc
          (.append (fill_typed built d) (AllAcc.access (g := true) hf)))))
      · exact .nil
    · exact .nil
  | find p f =>
    change AllAcc _ (Dispatch.find built p f)
    have hf : TypedAcc [(p, Elem.f32), (f, .u8)] := typed2 h.1 h.2
    unfold Dispatch.find
    split
    · exact AllAcc.access (g := false) hf
    · split
      · exact AllAcc.access (g := true) hf
      · exact .fail
    · exact .fail

/-- **C111 (partial).**  Whatever the element types, devices and history, an operation that chooses
its implementation by the element types of its arrays reads and writes every array at the type of
its elements (or throws before touching memory); the operations that do not (masked reductions,
`mean_stddev`, `median`, drift search) do so if the arrays have the types they assume.  Missing,
because it is false: the second group for other types, see `C111_*` below. -/
theorem C111_typed_partial (built : Bool) (cur : Nat) (c : Call) (h : c.Assumes) :
    ∀ l ∈ (run built cur c).1, Typed l :=
  exec_acc (acts_typed built c h) cur

/-- Calls that do choose by element type assume nothing. -/
theorem C111_checked_assume_nothing (c : Call) (h : ¬ c.Unchecked) : c.Assumes := by
  cases c <;> first | trivial | exact absurd trivial h

/-- The `Typed` conclusion over a whole history. -/
theorem C111_history_typed_partial (built : Bool) (cur : Nat) (cs : List Call)
    (h : ∀ c ∈ cs, c.Assumes) : ∀ l ∈ history built cur cs, Typed l := by
  induction cs generalizing cur with
  | nil => intro l hl; cases hl
  | cons c r ih =>
    intro l hl
    rcases List.mem_append.1 hl with hl | hl
    · exact C111_typed_partial built cur c (h c (List.mem_cons_self ..)) l hl
    · exact ih _ (fun c hc => h c (List.mem_cons_of_mem _ hc)) l hl

/-- The five element types that operations with scalars, copies and host reductions support. -/
def Supported (t : DType) : Prop :=
  (t.code = .float ∧ t.bits = 32) ∨ (t.code = .int ∧ (t.bits = 32 ∨ t.bits = 64)) ∨
    (t.code = .uint ∧ (t.bits = 8 ∨ t.bits = 32))

/-- The four element types that operations on two arrays support. -/
def SupportedPair (t : DType) : Prop :=
  (t.code = .float ∧ t.bits = 32) ∨ (t.code = .int ∧ t.bits = 32) ∨
    (t.code = .uint ∧ (t.bits = 8 ∨ t.bits = 32))

theorem wide_isSome (t : DType) : (∃ e, wide t = some e) ↔ Supported t := by
  obtain ⟨c, b, l⟩ := t
  cases c <;> simp only [wide, Supported, reduceCtorEq, false_and, true_and, or_false, false_or]
  · by_cases h : b = 32
    · simp [h]
    · by_cases h' : b = 64 <;> simp [h, h']
  · by_cases h : b = 8
    · simp [h]
    · by_cases h' : b = 32 <;> simp [h, h']
  · by_cases h : b = 32 <;> simp [h]
  · simp

theorem narrow_isSome (t : DType) : (∃ e, narrow t = some e) ↔ SupportedPair t := by
  obtain ⟨c, b, l⟩ := t
  cases c <;> simp only [narrow, SupportedPair, reduceCtorEq, false_and, true_and, or_false,
    false_or]
  · by_cases h : b = 32 <;> simp [h]
  · by_cases h : b = 8
    · simp [h]
    · by_cases h' : b = 32 <;> simp [h, h']
  · by_cases h : b = 32 <;> simp [h]
  · simp

/-- Arithmetic on two host arrays succeeds exactly for the four supported types, and throws a
`runtime_error` without touching memory otherwise; the same element type may differ between the
two operands. -/
theorem C111_arith_accepts (built : Bool) (cur : Nat) (a b : Arr) (n : Nat)
    (ha : a.dev = ⟨.cpu, n⟩) (hb : b.dev = ⟨.cpu, n⟩) :
    ((run built cur (.arith a b)).2.2 = none ↔ SupportedPair a.dtype ∧ SupportedPair b.dtype) ∧
      ((run built cur (.arith a b)).2.2 ≠ none →
        run built cur (.arith a b) = ([], cur, some .runtimeError)) := by
  have e : run built cur (.arith a b) = exec built cur
      (withElem (narrow a.dtype) fun eo => withElem (narrow a.dtype) fun ea =>
        withElem (narrow b.dtype) fun eb => [access false [(a, eo), (a, ea), (b, eb)]]) := by
    simp [run, Call.acts, arith, onSame, onDevice, ha, hb, exec, allocate]
  rw [e, ← narrow_isSome, ← narrow_isSome]
  cases h1 : narrow a.dtype with
  | none => simp [withElem, exec]
  | some x =>
    cases h2 : narrow b.dtype with
    | none => simp [withElem, exec]
    | some y => simp [withElem, exec, access]

/-- On a CUDA device the logical operations on two arrays succeed exactly for the supported integer types: floats are
refused, which the same operations accept on the host. -/
theorem C111_logical_on_gpu (cur : Nat) (a b : Arr) (n : Nat) (ha : a.dev = ⟨.cuda, n⟩) (hb : b.dev = ⟨.cuda, n⟩) :
    (run true cur (.compare true a b)).2.2 = none ↔
      (SupportedPair a.dtype ∧ a.dtype.code ≠ .float) ∧ SupportedPair b.dtype ∧ b.dtype.code ≠ .float := by
  have hf : ∀ t : DType, (∃ x, narrowNoFloat t = some x) ↔ SupportedPair t ∧ t.code ≠ .float := by
    intro t
    unfold narrowNoFloat
    split
    · next h => simp [h]
    · next h => rw [narrow_isSome]; exact ⟨fun hh => ⟨hh, h⟩, fun hh => hh.1⟩
  rw [← hf, ← hf]
  cases h1 : narrowNoFloat a.dtype with
  | none => simp [run, Call.acts, Dispatch.compare, onSame, onDevice, ha, hb, exec, allocate, withElem, h1]
  | some x =>
    cases h2 : narrowNoFloat b.dtype with
    | none => simp [run, Call.acts, Dispatch.compare, onSame, onDevice, ha, hb, exec, allocate, withElem, h1, h2]
    | some y =>
      simp [run, Call.acts, Dispatch.compare, onSame, onDevice, ha, hb, exec, allocate, withElem, access, h1, h2]

/-- Two arrays of bytes on a device meet the hypotheses, and are accepted. -/
example : (run true 0 (.compare true ⟨⟨.uint, 8, 1⟩, ⟨.cuda, 2⟩⟩ ⟨⟨.uint, 8, 1⟩, ⟨.cuda, 2⟩⟩)).2.2 = none :=
  (C111_logical_on_gpu 0 _ _ 2 rfl rfl).2 (by simp [SupportedPair])

/-- Arithmetic of a host array with a scalar succeeds exactly for the five supported types. -/
theorem C111_scalar_accepts (built : Bool) (cur : Nat) (a : Arr) (n : Nat)
    (ha : a.dev = ⟨.cpu, n⟩) :
    ((run built cur (.arithScalar a)).2.2 = none ↔ Supported a.dtype) ∧
      ((run built cur (.arithScalar a)).2.2 ≠ none →
        run built cur (.arithScalar a) = ([], cur, some .runtimeError)) := by
  have e : run built cur (.arithScalar a) = exec built cur
      (withElem (wide a.dtype) fun eo => withElem (wide a.dtype) fun ea =>
        [access false [(a, eo), (a, ea)]]) := by
    simp [run, Call.acts, arithScalar, onDevice, ha, exec, allocate]
  rw [e, ← wide_isSome]
  cases h1 : wide a.dtype with
  | none => simp [withElem, exec]
  | some x => simp [withElem, exec, access]

/-- Reductions of a host array into a new array succeed exactly for the five supported types; of
an array in CUDA memory exactly for float32. -/
theorem C111_reduce_accepts (cur : Nat) (a : Arr) (n : Nat) :
    (a.dev = ⟨.cpu, n⟩ → ∀ built,
      ((run built cur (.reduce a)).2.2 = none ↔ Supported a.dtype)) ∧
    (a.dev = ⟨.cuda, n⟩ →
      ((run true cur (.reduce a)).2.2 = none ↔ a.dtype.code = .float ∧ a.dtype.bits = 32)) := by
  constructor
  · intro ha built
    have e : run built cur (.reduce a) = exec built cur
        (withElem (wide a.dtype) fun eo => withElem (wide a.dtype) fun ea =>
          [access false [(a, eo), (a, ea)]]) := by
      simp [run, Call.acts, reduce, reduceInto, Dispatch.guard, onDeviceStrict, ha, exec, allocate]
    rw [e, ← wide_isSome]
    cases h1 : wide a.dtype with
    | none => simp [withElem, exec]
    | some x => simp [withElem, exec, access]
  · intro ha
    have e : run true cur (.reduce a) = exec true n
        (withElem (floatOnly a.dtype) fun eo => withElem (floatOnly a.dtype) fun ea =>
          [access true [(a, eo), (a, ea)]]) := by
      simp [run, Call.acts, reduce, reduceInto, Dispatch.guard, onDeviceStrict, ha, exec, allocate]
    have hf : (∃ x, floatOnly a.dtype = some x) ↔ a.dtype.code = .float ∧ a.dtype.bits = 32 := by
      unfold floatOnly
      split
      · next h => by_cases h' : a.dtype.bits = 32 <;> simp [h, h']
      · next h => simp only [reduceCtorEq, exists_false, false_iff]; exact fun hh => h hh.1
    rw [e, ← hf]
    cases h1 : floatOnly a.dtype with
    | none => simp [withElem, exec]
    | some x => simp [withElem, exec, access]

/-- `mean_stddev` of a host array never refuses an element type and always reads the array as
`float`: it is correct exactly for float32.  Mean and standard deviation of, say, an int32 array
are computed from reinterpreted bits and stored as such. -/
theorem C111_mean_stddev_reinterprets (built : Bool) (cur : Nat) (a : Arr) (n : Nat)
    (ha : a.dev = ⟨.cpu, n⟩) :
    run built cur (.meanStddev a) =
      ([⟨.host, [(a, .f32), (a, .f32), (a, .f32)]⟩], cur, none) ∧
    ((∀ l ∈ (run built cur (.meanStddev a)).1, Typed l) ↔ Matches .f32 a.dtype) := by
  have e : run built cur (.meanStddev a) =
      ([⟨.host, [(a, .f32), (a, .f32), (a, .f32)]⟩], cur, none) := by
    simp [run, Call.acts, meanStddev, meanStddevInto, Dispatch.guard, onDeviceStrict, ha, exec,
      allocate, access]
  refine ⟨e, ?_⟩
  rw [e]
  constructor
  · intro h
    exact h _ (List.mem_singleton.2 rfl) _ (List.mem_cons_self ..)
  · intro h l hl
    rw [List.mem_singleton.1 hl]
    exact typedCons h (typed2 h h)

/-- Bytes allocated for an array of `numel` elements.
bland/bland/bland_tensor_internals.cpp lines 76–80. -/
def allocatedBytes (numel : Nat) (t : DType) : Nat := numel * (t.bits / 8)

/-- Consequently `mean_stddev` of a non-empty 8- or 16-bit array reads past its end: it accesses
four bytes per element of an allocation with fewer. -/
theorem C111_mean_stddev_out_of_bounds (numel : Nat) (t : DType) (h : 0 < numel)
    (hb : t.bits < 32) : allocatedBytes numel t < 4 * numel := by
  have : t.bits / 8 ≤ 3 := by omega
  unfold allocatedBytes
  calc numel * (t.bits / 8) ≤ numel * 3 := Nat.mul_le_mul_left _ this
    _ < 4 * numel := by omega

/-- `median` of a host array of a supported type: reinterprets the copy as `float`, refusing only
what the copy refuses. -/
theorem C111_median_reinterprets (built : Bool) (cur : Nat) (a : Arr) (n : Nat)
    (ha : a.dev = ⟨.cpu, n⟩) (h : Supported a.dtype) :
    (run built cur (.median a)).2.2 = none ∧
      ((∀ l ∈ (run built cur (.median a)).1, Typed l) ↔ Matches .f32 a.dtype) := by
  obtain ⟨x, hx⟩ := (wide_isSome _).2 h
  have e : run built cur (.median a) =
      ([⟨.host, [(a, x), (a, x)]⟩, ⟨.host, [(a, .f32)]⟩], cur, none) := by
    simp [run, Call.acts, median, withElem, hx, exec, allocate, ha]
  rw [e]
  refine ⟨rfl, ?_⟩
  constructor
  · intro h
    exact h ⟨.host, [(a, .f32)]⟩ (by simp) _ (List.mem_cons_self ..)
  · intro h l hl
    simp only [List.mem_cons, List.not_mem_nil, or_false] at hl
    rcases hl with rfl | rfl
    · exact typed2 (wide_matches hx) (wide_matches hx)
    · exact typed1 h

/-- A mask is accepted by host code as soon as its code is unsigned *or* its width is 8: in
particular uint32, uint16, uint64 and int8 masks are accepted. -/
theorem C111_mask_accepted_iff (m : DType) :
    maskAccepted m = true ↔ m.code = .uint ∨ m.bits = 8 := by
  unfold maskAccepted
  cases m.code <;> by_cases h : m.bits = 8 <;> simp [h]

/-- On the host, masked reductions of an array succeed exactly for the five supported types and a mask
whose code is unsigned or whose width is 8; masked reductions to mean and deviation at once do not look
at the type of the array. Any other mask makes them throw a `runtime_error` without touching memory. -/
theorem C111_masked_accepts (built : Bool) (cur : Nat) (a mask : Arr) (n : Nat)
    (ha : a.dev = ⟨.cpu, n⟩) (hm : mask.dev = ⟨.cpu, n⟩) :
    ((run built cur (.masked a mask)).2.2 = none ↔
      Supported a.dtype ∧ (mask.dtype.code = .uint ∨ mask.dtype.bits = 8)) ∧
    ((run built cur (.masked a mask)).2.2 ≠ none →
      run built cur (.masked a mask) = ([], cur, some .runtimeError)) ∧
    ((run built cur (.maskedMeanStddev a mask)).2.2 = none ↔
      (mask.dtype.code = .uint ∨ mask.dtype.bits = 8)) ∧
    ((run built cur (.maskedMeanStddev a mask)).2.2 ≠ none →
      run built cur (.maskedMeanStddev a mask) = ([], cur, some .runtimeError)) := by
  have e : run built cur (.masked a mask) = exec built cur
      (withElem (wide a.dtype) fun eo => withElem (wide a.dtype) fun ea =>
        Dispatch.guard (maskAccepted mask.dtype) [access false [(a, eo), (a, ea), (mask, .u8)]]) := by
    simp [run, Call.acts, masked, maskedInto, Dispatch.guard, onDeviceStrict, ha, hm, exec, allocate]
  have e' : run built cur (.maskedMeanStddev a mask) = exec built cur
      (Dispatch.guard (maskAccepted mask.dtype)
        [access false [(a, .f32), (a, .f32), (a, .f32), (mask, .u8)]]) := by
    simp [run, Call.acts, maskedMeanStddev, maskedMeanStddevInto, Dispatch.guard, onDeviceStrict, ha,
      hm, exec, allocate]
  rw [e, e', ← wide_isSome, ← C111_mask_accepted_iff]
  cases h1 : wide a.dtype <;> cases h2 : maskAccepted mask.dtype <;>
    simp [withElem, exec, access, Dispatch.guard]

/-- A uint32 mask on a float32 host array is accepted and then read as bytes: element `i` of the
mask that is consulted is byte `i` of the mask's memory. -/
theorem C111_uint32_mask_reinterpreted (built : Bool) (cur n : Nat) :
    ∃ l, (run built cur (.masked ⟨float32, ⟨.cpu, n⟩⟩ ⟨⟨.uint, 32, 1⟩, ⟨.cpu, n⟩⟩)).1 = [l] ∧
      (run built cur (.masked ⟨float32, ⟨.cpu, n⟩⟩ ⟨⟨.uint, 32, 1⟩, ⟨.cpu, n⟩⟩)).2.2 = none ∧
      ¬ Typed l := by
  refine ⟨⟨.host, [(⟨float32, ⟨.cpu, n⟩⟩, .f32), (⟨float32, ⟨.cpu, n⟩⟩, .f32),
    (⟨⟨.uint, 32, 1⟩, ⟨.cpu, n⟩⟩, .u8)]⟩, ?_, ?_, ?_⟩
  · simp [run, Call.acts, masked, maskedInto, Dispatch.guard, onDeviceStrict, withElem, wide,
      float32, maskAccepted, exec, allocate, access]
  · simp [run, Call.acts, masked, maskedInto, Dispatch.guard, onDeviceStrict, withElem, wide,
      float32, maskAccepted, exec, allocate, access]
  · intro h
    have := h (⟨⟨.uint, 32, 1⟩, ⟨.cpu, n⟩⟩, .u8) (by simp)
    simp [Matches] at this

/-- On a CUDA device no mask type is refused: even a float mask is read as bytes. -/
theorem C111_cuda_mask_unchecked (cur n : Nat) (m : DType) :
    (run true cur (.masked ⟨float32, ⟨.cuda, n⟩⟩ ⟨m, ⟨.cuda, n⟩⟩)).2.2 = none ∧
      ((∀ l ∈ (run true cur (.masked ⟨float32, ⟨.cuda, n⟩⟩ ⟨m, ⟨.cuda, n⟩⟩)).1, Typed l) ↔
        Matches .u8 m) := by
  have e : run true cur (.masked ⟨float32, ⟨.cuda, n⟩⟩ ⟨m, ⟨.cuda, n⟩⟩) =
      ([⟨.gpu n, [(⟨float32, ⟨.cuda, n⟩⟩, .f32), (⟨float32, ⟨.cuda, n⟩⟩, .f32),
        (⟨m, ⟨.cuda, n⟩⟩, .u8)]⟩], n, none) := by
    simp [run, Call.acts, masked, maskedInto, Dispatch.guard, onDeviceStrict, withElem, floatOnly,
      float32, exec, allocate, access]
  rw [e]
  refine ⟨rfl, ?_⟩
  constructor
  · intro h
    exact h _ (List.mem_singleton.2 rfl) (⟨m, ⟨.cuda, n⟩⟩, .u8) (by simp)
  · intro h l hl
    rw [List.mem_singleton.1 hl]
    exact typedCons ⟨rfl, rfl⟩ (typed2 ⟨rfl, rfl⟩ h)

/-- The drift search reads samples as `float` and the mask as bytes without looking at their
types, on host and on CUDA (there `fill` refuses some types first). -/
theorem C111_integrate_reinterprets (built : Bool) (cur n : Nat) (t m : DType) :
    (run built cur (.integrate ⟨t, ⟨.cpu, n⟩⟩ ⟨m, ⟨.cpu, n⟩⟩)).2.2 = none ∧
      ((∀ l ∈ (run built cur (.integrate ⟨t, ⟨.cpu, n⟩⟩ ⟨m, ⟨.cpu, n⟩⟩)).1, Typed l) ↔
        Matches .f32 t ∧ Matches .u8 m) := by
  constructor
  · simp [run, Call.acts, integrate, exec, allocate]
  · constructor
    · intro h
      have e : (run built cur (.integrate ⟨t, ⟨.cpu, n⟩⟩ ⟨m, ⟨.cpu, n⟩⟩)).1 =
          [⟨.host, [(⟨t, ⟨.cpu, n⟩⟩, .f32), (⟨m, ⟨.cpu, n⟩⟩, .u8), (⟨t, ⟨.cpu, n⟩⟩, .f32),
            (⟨uint8, ⟨.cpu, n⟩⟩, .u8), (⟨uint8, ⟨.cpu, n⟩⟩, .u8), (⟨uint8, ⟨.cpu, n⟩⟩, .u8)]⟩] := by
        simp [run, Call.acts, integrate, exec, allocate]
      rw [e] at h
      have h' := h _ (List.mem_singleton.2 rfl)
      exact ⟨h' _ (List.mem_cons_self ..), h' (⟨m, ⟨.cpu, n⟩⟩, .u8) (by simp)⟩
    · intro h
      exact C111_typed_partial built cur (.integrate ⟨t, ⟨.cpu, n⟩⟩ ⟨m, ⟨.cpu, n⟩⟩) h

/-! ## Devices -/

/-- Calls that start with an allocation of their result on the device of their operand, before any
kernel runs. -/
def Call.Fresh : Call → Prop
  | .create _ | .toDev _ _ | .arith _ _ | .arithScalar _ | .compare _ _ _ | .compareScalar _ _
  | .unary _ | .reduce _ | .max _ | .masked _ _ | .meanStddev _ | .maskedMeanStddev _ _ | .var _
  | .power _ => True
  | _ => False

/-- Calls that use host code whatever the device. -/
def Call.HostOnly : Call → Prop
  | .abs _ | .moment _ | .momentInto _ _ | .median _ => True
  | _ => False

/-- Arrays named in a call. -/
def Call.arrays : Call → List Arr
  | .create a | .toDev a _ | .arithScalar a | .compareScalar _ a | .unary a | .abs a | .fill a
  | .reduce a | .max a | .meanStddev a | .var a | .moment a | .median a | .countTrue a
  | .power a => [a]
  | .arith a b | .compare _ a b | .unaryInto a b | .reduceInto a b | .maxInto a b | .masked a b
  | .maskedMeanStddev a b | .momentInto a b | .integrate a b | .find a b => [a, b]
  | .maskedInto a m o => [a, m, o]
  | .meanStddevInto a om os => [a, om, os]
  | .maskedMeanStddevInto a m om os => [a, m, om, os]

/-- All accesses of a list of actions are on arrays with device `d`. -/
def OnDev (d : Dev) (acc : List (Arr × Elem)) : Prop := ∀ p ∈ acc, p.1.dev = d

theorem OnDev.nil {d} : OnDev d [] := by intro p hp; cases hp

theorem OnDev.cons {d a e r} (h : a.dev = d) (h' : OnDev d r) : OnDev d ((a, e) :: r) := by
  intro p hp
  rcases List.mem_cons.1 hp with rfl | hp
  · exact h
  · exact h' p hp

/-- A list of actions without allocations whose kernels are chosen by `d`. -/
inductive Local (d : Dev) : List Act → Prop
  | nil : Local d []
  | fail {e r} : Local d (.fail e :: r)
  | host {acc r} : (d.kind = .cpu ∨ d.kind = .cudaHost ∨ d.kind = .cudaManaged) → OnDev d acc →
      Local d r → Local d (.host acc :: r)
  | gpu {acc r} : (d.kind = .cuda ∨ d.kind = .cudaManaged) → OnDev d acc →
      Local d r → Local d (.gpu acc :: r)
  | alloc {a r} : a.dev = d → Local d r → Local d (.alloc a :: r)

theorem Local.append {d r s} (h : Local d r) (h' : Local d s) : Local d (r ++ s) := by
  induction h with
  | nil => exact h'
  | fail => exact .fail
  | host a b _ ih => exact .host a b ih
  | gpu a b _ ih => exact .gpu a b ih
  | alloc a _ ih => exact .alloc a ih

theorem Local.withElem {d o k} (h : ∀ e, Local d (k e)) : Local d (Dispatch.withElem o k) := by
  unfold Dispatch.withElem
  split
  · exact h _
  · exact .fail

theorem Local.guard {d} {c : Bool} {k} (h : c = true → Local d k) :
    Local d (Dispatch.guard c k) := by
  unfold Dispatch.guard
  split
  · next hc => exact h hc
  · exact .fail

/-- The choice between host and kernel is right for the device. -/
def Side (d : Dev) (g : Bool) : Prop :=
  if g then d.kind = .cuda ∨ d.kind = .cudaManaged else d.kind = .cpu ∨ d.kind = .cudaHost

theorem Local.access {d g acc} (hs : Side d g) (h : OnDev d acc) :
    Local d [Dispatch.access g acc] := by
  unfold Dispatch.access
  cases g
  · refine .host ?_ h .nil
    rcases hs with hs | hs
    · exact .inl hs
    · exact .inr (.inl hs)
  · exact .gpu hs h .nil

theorem Local.onDevice {built d k} (h : ∀ g, Side d g → Local d (k g)) :
    Local d (Dispatch.onDevice built d k) := by
  unfold Dispatch.onDevice
  split
  · next e => exact h _ (.inl e)
  · next e => exact h _ (.inr e)
  · next e =>
    split
    · exact h _ (.inl e)
    · exact .fail
  · next e =>
    split
    · exact h _ (.inr e)
    · exact .fail
  · exact .fail

theorem Local.onSame {built a b k} (h : a = b → ∀ g, Side b g → Local b (k g)) :
    Local b (Dispatch.onSame built a b k) := by
  unfold Dispatch.onSame
  split
  · next e => exact .onDevice (h e)
  · exact .fail

theorem Local.onDeviceStrict {built d k} (h : ∀ g, Side d g → Local d (k g)) :
    Local d (Dispatch.onDeviceStrict built d k) := by
  unfold Dispatch.onDeviceStrict
  split
  · next e => exact h _ (.inl e)
  · next e =>
    split
    · exact h _ (.inl e)
    · exact .fail
  · next e =>
    split
    · exact h _ (.inr e)
    · exact .fail
  · exact .fail
  · exact .fail

theorem unaryInto_local (built : Bool) (a o : Arr) : Local o.dev (unaryInto built a o) :=
  .onSame fun e _ hs => .withElem fun _ => .withElem fun _ =>
    .access hs (.cons rfl (.cons e .nil))

theorem reduceInto_local (built : Bool) (a o : Arr) : Local a.dev (reduceInto built a o) :=
  .guard fun e => .onDeviceStrict fun _ hs => .withElem fun _ => .withElem fun _ =>
    .access hs (.cons (of_decide_eq_true e) (.cons rfl .nil))

theorem fill_local (built : Bool) (o : Arr) : Local o.dev (fill built o) :=
  .onDeviceStrict fun _ hs => .withElem fun _ => .access hs (.cons rfl .nil)

theorem countTrue_local (built : Bool) (a : Arr) : Local a.dev (countTrue built a) :=
  .onDeviceStrict fun _ hs => .withElem fun _ => .access hs (.cons rfl .nil)

theorem maxInto_local (built : Bool) (a o : Arr) : Local a.dev (maxInto built a o) := by
  refine .guard fun e => .onDeviceStrict fun g hs => ?_
  cases g
  · exact .guard fun _ => .withElem fun _ =>
      .access hs (.cons (of_decide_eq_true e) (.cons rfl .nil))
  · exact .withElem fun _ => .withElem fun _ =>
      .access hs (.cons (of_decide_eq_true e) (.cons rfl .nil))

theorem maskedInto_local (built : Bool) (a m o : Arr) :
    Local a.dev (maskedInto built a m o) :=
  .guard fun e => .guard fun e' => .onDeviceStrict fun _ hs => .withElem fun _ =>
    .withElem fun _ => .guard fun _ => .access hs
      (.cons (of_decide_eq_true e) (.cons rfl (.cons (of_decide_eq_true e') .nil)))

theorem meanStddevInto_local (built : Bool) (a om os : Arr) :
    Local a.dev (meanStddevInto built a om os) := by
  refine .guard fun e => .onDeviceStrict fun _ hs => .access hs ?_
  rw [Bool.and_eq_true] at e
  exact .cons (of_decide_eq_true e.1) (.cons (of_decide_eq_true e.2) (.cons rfl .nil))

theorem maskedMeanStddevInto_local (built : Bool) (a m om os : Arr) :
    Local a.dev (maskedMeanStddevInto built a m om os) := by
  refine .guard fun e => .guard fun e' => .onDeviceStrict fun _ hs => .guard fun _ =>
    .access hs ?_
  rw [Bool.and_eq_true] at e
  exact .cons (of_decide_eq_true e.1) (.cons (of_decide_eq_true e.2) (.cons rfl
    (.cons (of_decide_eq_true e') .nil)))

/-- Actions local to a device run where its memory is reachable, once the current device is the
device (or the device is not a CUDA device's own memory). -/
theorem exec_local {built : Bool} {d : Dev} {acts : List Act} (h : Local d acts) :
    ∀ cur, (d.kind = .cuda → cur = d.id) → ∀ l ∈ (exec built cur acts).1, Placed l := by
  induction h with
  | nil => intro cur _ l hl; cases hl
  | fail => intro cur _ l hl; cases hl
  | host hk ha _ ih =>
    intro cur hc l hl
    rcases List.mem_cons.1 hl with rfl | hl
    · intro p hp
      rw [ha p hp]
      exact hk
    · exact ih cur hc l hl
  | gpu hk ha _ ih =>
    intro cur hc l hl
    rcases List.mem_cons.1 hl with rfl | hl
    · intro p hp
      rw [ha p hp]
      rcases hk with hk | hk
      · exact .inl ⟨hk, (hc hk).symm⟩
      · exact .inr (.inl hk)
    · exact ih cur hc l hl
  | alloc ha _ ih =>
    intro cur hc l hl
    unfold exec at hl
    rw [ha] at hl
    split at hl
    · next cur' hcur =>
      refine ih cur' (fun hk => ?_) l hl
      simp only [allocate, hk] at hcur
      split at hcur
      · exact (Option.some.inj hcur).symm
      · cases hcur
    · cases hl

/-- A call that allocates first needs nothing from the current device. -/
theorem exec_alloc_local {built : Bool} {d : Dev} {a : Arr} {acts : List Act} (ha : a.dev = d)
    (h : Local d acts) (cur : Nat) : ∀ l ∈ (exec built cur (.alloc a :: acts)).1, Placed l := by
  intro l hl
  unfold exec at hl
  split at hl
  · next cur' hcur =>
    refine exec_local h cur' (fun hk => ?_) l hl
    rw [← ha] at hk ⊢
    simp only [allocate, hk] at hcur
    split at hcur
    · exact (Option.some.inj hcur).symm
    · cases hcur
  · cases hl

/-- The same through the branch on the compute device. -/
theorem exec_onDevice_alloc {built : Bool} {d : Dev} {a : Arr} {body : Bool → List Act}
    (ha : a.dev = d) (h : ∀ g, Side d g → Local d (body g)) (cur : Nat) :
    ∀ l ∈ (exec built cur (onDevice built d fun g => .alloc a :: body g)).1, Placed l := by
  unfold onDevice
  split
  · next k => exact exec_alloc_local ha (h false (.inl k)) cur
  · next k => exact exec_alloc_local ha (h false (.inr k)) cur
  · next k =>
    split
    · exact exec_alloc_local ha (h true (.inl k)) cur
    · intro l hl; cases hl
  · next k =>
    split
    · exact exec_alloc_local ha (h true (.inr k)) cur
    · intro l hl; cases hl
  · intro l hl; cases hl

theorem exec_fail (built : Bool) (cur : Nat) : (exec built cur [.fail .runtimeError]).1 = [] := rfl

/-- **C112 (partial).**  Whatever the current CUDA device, i.e. whatever was done before and on
which devices, an operation that creates its own result accesses only memory it can reach: host
code touches no CUDA memory, and a kernel runs on the device its arrays live on.  Missing, because
it is false: operations into a given array when several CUDA devices are used, and the operations
that always use host code; see below. -/
theorem C112_fresh_placed_partial (built : Bool) (cur : Nat) (c : Call) (h : c.Fresh) :
    ∀ l ∈ (run built cur c).1, Placed l := by
  cases c with
  | create a => exact exec_alloc_local rfl .nil cur
  | toDev a d =>
    change ∀ l ∈ (exec built cur (Dispatch.toDev a d)).1, Placed l
    unfold Dispatch.toDev
    split
    · intro l hl; cases hl
    · exact exec_alloc_local rfl .nil cur
  | arith a b =>
    change ∀ l ∈ (exec built cur (Dispatch.arith built a b)).1, Placed l
    unfold Dispatch.arith onSame
    split
    · next e =>
      exact exec_onDevice_alloc e (fun g hs => .withElem fun _ => .withElem fun _ =>
        .withElem fun _ => .access hs (.cons e (.cons e (.cons rfl .nil)))) cur
    · intro l hl; cases hl
  | arithScalar a =>
    change ∀ l ∈ (exec built cur (Dispatch.arithScalar built a)).1, Placed l
    unfold Dispatch.arithScalar
    exact exec_onDevice_alloc rfl (fun g hs => .withElem fun _ => .withElem fun _ =>
      .access hs (.cons rfl (.cons rfl .nil))) cur
  | compare lg a b =>
    change ∀ l ∈ (exec built cur (Dispatch.compare built lg a b)).1, Placed l
    unfold Dispatch.compare onSame
    split
    · next e =>
      exact exec_onDevice_alloc (a := ⟨uint8, a.dev⟩) e (fun g hs => .withElem fun _ =>
        .withElem fun _ => .access hs (.cons (a := ⟨uint8, a.dev⟩) e (.cons e (.cons rfl .nil)))) cur
    · intro l hl; cases hl
  | compareScalar lg a =>
    change ∀ l ∈ (exec built cur (Dispatch.compareScalar built lg a)).1, Placed l
    unfold Dispatch.compareScalar
    exact exec_onDevice_alloc (d := a.dev) (a := ⟨uint8, a.dev⟩) rfl (fun g hs =>
      .withElem fun _ => .access hs
        (.cons (a := ⟨uint8, a.dev⟩) rfl (.cons (a := a) rfl .nil))) cur
  | unary a => exact exec_alloc_local rfl (unaryInto_local built a a) cur
  | reduce a => exact exec_alloc_local rfl (reduceInto_local built a a) cur
  | max a => exact exec_alloc_local rfl (maxInto_local built a a) cur
  | masked a m => exact exec_alloc_local rfl (maskedInto_local built a m a) cur
  | meanStddev a =>
    exact exec_alloc_local rfl (.alloc rfl (meanStddevInto_local built a a a)) cur
  | maskedMeanStddev a m =>
    exact exec_alloc_local rfl (.alloc rfl (maskedMeanStddevInto_local built a m a a)) cur
  | var a =>
    exact exec_alloc_local rfl
      (.append (reduceInto_local built a a) (.alloc rfl (unaryInto_local built a a))) cur
  | power a =>
    change ∀ l ∈ (exec built cur (Dispatch.power built a)).1, Placed l
    unfold Dispatch.power Dispatch.guard
    split
    · exact exec_alloc_local rfl
        (.onDevice fun _ hs => .access hs (.cons rfl (.cons rfl .nil))) cur
    · intro l hl; cases hl
  | _ => exact absurd h id

/-- Every allocation and access of a list of actions is on a device number `n` unless it is on
plain host memory, and kernels and host code are used on memory they can reach. -/
inductive Single (n : Nat) : List Act → Prop
  | nil : Single n []
  | fail {e r} : Single n (.fail e :: r)
  | alloc {a r} : (a.dev.kind ≠ .cpu → a.dev.id = n) → Single n r → Single n (.alloc a :: r)
  | host {acc r} : (∀ p ∈ acc, Reachable p.1.dev .host) → Single n r → Single n (.host acc :: r)
  | gpu {acc r} : (∀ p ∈ acc, Reachable p.1.dev (.gpu n)) → Single n r → Single n (.gpu acc :: r)

theorem Single.of_local {n : Nat} {d : Dev} {acts : List Act} (hd : d.kind ≠ .cpu → d.id = n)
    (h : Local d acts) : Single n acts := by
  induction h with
  | nil => exact .nil
  | fail => exact .fail
  | host hk ha _ ih => exact .host (fun p hp => by rw [ha p hp]; exact hk) ih
  | gpu hk ha _ ih =>
    refine .gpu (fun p hp => ?_) ih
    rw [ha p hp]
    rcases hk with hk | hk
    · exact .inl ⟨hk, hd (by rw [hk]; decide)⟩
    · exact .inr (.inl hk)
  | alloc ha _ ih => exact .alloc (by rw [ha]; exact hd) ih

theorem exec_single {built : Bool} {n : Nat} {acts : List Act} (h : Single n acts) :
    (∀ l ∈ (exec built n acts).1, Placed l) ∧ (exec built n acts).2.1 = n := by
  induction h with
  | nil => exact ⟨by simp [exec], rfl⟩
  | fail => exact ⟨by simp [exec], rfl⟩
  | host ha _ ih =>
    refine ⟨fun l hl => ?_, ih.2⟩
    rcases List.mem_cons.1 hl with rfl | hl
    · exact ha
    · exact ih.1 l hl
  | gpu ha _ ih =>
    refine ⟨fun l hl => ?_, ih.2⟩
    rcases List.mem_cons.1 hl with rfl | hl
    · exact ha
    · exact ih.1 l hl
  | @alloc a r ha _ ih =>
    unfold exec
    cases hk : a.dev.kind with
    | cpu => simpa [allocate, hk] using ih
    | other => simp [allocate, hk]
    | cuda =>
      have := ha (by rw [hk]; decide)
      cases built
      · simp [allocate, hk]
      · simpa [allocate, hk, this] using ih
    | cudaHost =>
      have := ha (by rw [hk]; decide)
      cases built
      · simp [allocate, hk]
      · simpa [allocate, hk, this] using ih
    | cudaManaged =>
      have := ha (by rw [hk]; decide)
      cases built
      · simp [allocate, hk]
      · simpa [allocate, hk, this] using ih

/-- What the drift search assumes: samples and mask (drift plane and flags) on one device. -/
def Call.SameDevice : Call → Prop
  | .integrate a b | .find a b => a.dev = b.dev
  | _ => True

/-- Devices a call may name when only CUDA device `n` is used. -/
def Call.Uses (n : Nat) (c : Call) : Prop :=
  (∀ a ∈ c.arrays, a.dev.kind ≠ .cpu → a.dev.id = n) ∧
    (match c with
      | .toDev _ d => d.kind ≠ .cpu → d.id = n
      | _ => True)

theorem acts_single (built : Bool) (n : Nat) (c : Call) (hu : c.Uses n) (hh : ¬ c.HostOnly)
    (hs : c.SameDevice) : Single n (c.acts built) := by
  cases c with
  | create a => exact .alloc (hu.1 a (by simp [Call.arrays])) .nil
  | toDev a d =>
    change Single n (Dispatch.toDev a d)
    unfold Dispatch.toDev
    split
    · exact .nil
    · exact .alloc hu.2 .nil
  | arith a b =>
    refine .of_local (d := b.dev) (hu.1 b (by simp [Call.arrays])) (.onSame fun e _ hs => .alloc e
      (.withElem fun _ => .withElem fun _ => .withElem fun _ =>
        .access hs (.cons e (.cons e (.cons rfl .nil)))))
  | arithScalar a =>
    refine .of_local (hu.1 a (by simp [Call.arrays])) ?_
    change Local a.dev (Dispatch.arithScalar built a)
    unfold Dispatch.arithScalar
    exact .onDevice fun _ hs => .alloc rfl
      (.withElem fun _ => .withElem fun _ => .access hs (.cons rfl (.cons rfl .nil)))
  | compare l a b =>
    refine .of_local (d := b.dev) (hu.1 b (by simp [Call.arrays])) (.onSame fun e _ hs => .alloc e
      (.withElem fun _ => .withElem fun _ =>
        .access hs (.cons e (.cons e (.cons rfl .nil)))))
  | compareScalar l a =>
    refine .of_local (hu.1 a (by simp [Call.arrays])) ?_
    change Local a.dev (Dispatch.compareScalar built l a)
    unfold Dispatch.compareScalar
    exact .onDevice fun _ hs => .alloc rfl
      (.withElem fun _ => .access hs (.cons (a := ⟨uint8, a.dev⟩) rfl (.cons rfl .nil)))
  | unary a =>
    exact .of_local (hu.1 a (by simp [Call.arrays])) (.alloc rfl (unaryInto_local built a a))
  | unaryInto a o =>
    exact .of_local (hu.1 o (by simp [Call.arrays])) (unaryInto_local built a o)
  | abs a => exact absurd trivial hh
  | fill o => exact .of_local (hu.1 o (by simp [Call.arrays])) (fill_local built o)
  | reduce a =>
    exact .of_local (hu.1 a (by simp [Call.arrays])) (.alloc rfl (reduceInto_local built a a))
  | reduceInto a o =>
    exact .of_local (hu.1 a (by simp [Call.arrays])) (reduceInto_local built a o)
  | max a => exact .of_local (hu.1 a (by simp [Call.arrays])) (.alloc rfl (maxInto_local built a a))
  | maxInto a o => exact .of_local (hu.1 a (by simp [Call.arrays])) (maxInto_local built a o)
  | masked a m =>
    exact .of_local (hu.1 a (by simp [Call.arrays])) (.alloc rfl (maskedInto_local built a m a))
  | maskedInto a m o =>
    exact .of_local (hu.1 a (by simp [Call.arrays])) (maskedInto_local built a m o)
  | meanStddev a =>
    exact .of_local (hu.1 a (by simp [Call.arrays]))
      (.alloc rfl (.alloc rfl (meanStddevInto_local built a a a)))
  | meanStddevInto a om os =>
    exact .of_local (hu.1 a (by simp [Call.arrays])) (meanStddevInto_local built a om os)
  | maskedMeanStddev a m =>
    exact .of_local (hu.1 a (by simp [Call.arrays]))
      (.alloc rfl (.alloc rfl (maskedMeanStddevInto_local built a m a a)))
  | maskedMeanStddevInto a m om os =>
    exact .of_local (hu.1 a (by simp [Call.arrays])) (maskedMeanStddevInto_local built a m om os)
  | var a =>
    exact .of_local (hu.1 a (by simp [Call.arrays])) (.append
      (.alloc rfl (reduceInto_local built a a)) (.alloc rfl (unaryInto_local built a a)))
  | moment a => exact absurd trivial hh
  | momentInto a o => exact absurd trivial hh
  | median a => exact absurd trivial hh
  | countTrue a => exact .of_local (hu.1 a (by simp [Call.arrays])) (countTrue_local built a)
  | power a =>
    exact .of_local (hu.1 a (by simp [Call.arrays])) (.guard fun _ => .alloc rfl
      (.onDevice fun _ hs => .access hs (.cons rfl (.cons rfl .nil))))
  | integrate d m =>
    change Single n (Dispatch.integrate built d m)
    have hs : d.dev = m.dev := hs
    have hd : OnDev d.dev [(d, Elem.f32), (m, .u8), (d, .f32), ((⟨uint8, m.dev⟩ : Arr), .u8),
        (⟨uint8, m.dev⟩, .u8), (⟨uint8, m.dev⟩, .u8)] :=
      .cons rfl (.cons hs.symm (.cons rfl (.cons hs.symm (.cons hs.symm (.cons hs.symm .nil)))))
    refine .of_local (d := d.dev) (hu.1 d (by simp [Call.arrays])) ?_
    unfold Dispatch.integrate
    split
    · next k =>
      exact .alloc rfl (.alloc hs.symm (.alloc hs.symm (.alloc hs.symm (.host (.inl k) hd .nil))))
    · next k =>
      split
      · exact .alloc rfl (.alloc hs.symm (.alloc hs.symm (.alloc hs.symm
          (.append (fill_local built d) (.gpu (.inl k) hd .nil)))))
      · exact .nil
    · exact .nil
  | find p f =>
    change Single n (Dispatch.find built p f)
    have hs : p.dev = f.dev := hs
    have hd : OnDev p.dev [(p, Elem.f32), (f, .u8)] := .cons rfl (.cons hs.symm .nil)
    refine .of_local (d := p.dev) (hu.1 p (by simp [Call.arrays])) ?_
    unfold Dispatch.find
    split
    · next k => exact .host (.inl k) hd .nil
    · next k =>
      split
      · exact .gpu (.inl k) hd .nil
      · exact .fail
    · exact .fail

/-- **C112 (one device, partial).**  In a process that uses one CUDA device, and started on it,
every history of operations (exceptions caught), into new or given arrays, accesses only memory it
can reach.  Missing, because it is false: the operations that always use host code. -/
theorem C112_single_device_partial (built : Bool) (n : Nat) (cs : List Call)
    (hu : ∀ c ∈ cs, c.Uses n) (hh : ∀ c ∈ cs, ¬ c.HostOnly) (hs : ∀ c ∈ cs, c.SameDevice) :
    ∀ l ∈ history built n cs, Placed l := by
  induction cs with
  | nil => intro l hl; cases hl
  | cons c r ih =>
    have h := exec_single (built := built) (acts_single built n c (hu c (List.mem_cons_self ..))
      (hh c (List.mem_cons_self ..)) (hs c (List.mem_cons_self ..)))
    intro l hl
    rcases List.mem_append.1 hl with hl | hl
    · exact h.1 l hl
    · have e : (run built n c).2.1 = n := h.2
      rw [e] at hl
      exact ih (fun c hc => hu c (List.mem_cons_of_mem _ hc))
        (fun c hc => hh c (List.mem_cons_of_mem _ hc))
        (fun c hc => hs c (List.mem_cons_of_mem _ hc)) l hl

/-- Host-only operations are fine on host memory: the restriction to other calls is needed only
for CUDA memory. -/
theorem C112_host_only_on_host (built : Bool) (cur : Nat) (a : Arr) (n : Nat)
    (ha : a.dev = ⟨.cpu, n⟩) :
    (∀ l ∈ (run built cur (.abs a)).1, Placed l) ∧
      (∀ l ∈ (run built cur (.moment a)).1, Placed l) ∧
      (∀ l ∈ (run built cur (.median a)).1, Placed l) := by
  have hk : a.dev.kind = .cpu := by rw [ha]
  have hd : ∀ e f, OnDev a.dev [(a, e), (a, f)] := fun _ _ => .cons rfl (.cons rfl .nil)
  refine ⟨?_, ?_, ?_⟩
  · exact exec_alloc_local rfl
      (.withElem fun _ => .withElem fun _ => .access (g := false) (.inl hk) (hd _ _)) cur
  · exact exec_alloc_local rfl (.withElem fun _ => .withElem fun _ => .alloc rfl
      (.host (.inl hk) (.cons rfl (hd _ _)) .nil)) cur
  · exact exec_alloc_local rfl (.withElem fun _ => .withElem fun _ =>
      .host (.inl hk) (hd _ _) (.host (.inl hk) (.cons rfl .nil) .nil)) cur

/-- `abs`, `standardized_moment` and `median` of a float32 array in CUDA memory run host code on
it: on every CUDA device, in every state. -/
theorem C112_host_code_on_cuda (cur n : Nat) :
    (∃ l ∈ (run true cur (.abs ⟨float32, ⟨.cuda, n⟩⟩)).1, ¬ Placed l) ∧
      (∃ l ∈ (run true cur (.moment ⟨float32, ⟨.cuda, n⟩⟩)).1, ¬ Placed l) ∧
      (∃ l ∈ (run true cur (.median ⟨float32, ⟨.cuda, n⟩⟩)).1, ¬ Placed l) := by
  have hn : ∀ acc, (⟨float32, ⟨.cuda, n⟩⟩, Elem.f32) ∈ acc → ¬ Placed ⟨.host, acc⟩ := by
    intro acc hm h
    have := h _ hm
    simp [Reachable] at this
  refine ⟨⟨⟨.host, [(⟨float32, ⟨.cuda, n⟩⟩, .f32), (⟨float32, ⟨.cuda, n⟩⟩, .f32)]⟩, ?_, ?_⟩,
    ⟨⟨.host, [(⟨float32, ⟨.cuda, n⟩⟩, .f32), (⟨float32, ⟨.cuda, n⟩⟩, .f32),
      (⟨float32, ⟨.cuda, n⟩⟩, .f32)]⟩, ?_, ?_⟩, ⟨⟨.host, [(⟨float32, ⟨.cuda, n⟩⟩, .f32)]⟩, ?_, ?_⟩⟩
  · simp [run, Call.acts, Dispatch.abs, withElem, wide, float32, exec, allocate, access]
  · exact hn _ (by simp)
  · simp [run, Call.acts, Dispatch.moment, momentInto, withElem, wide, float32, exec, allocate]
  · exact hn _ (by simp)
  · simp [run, Call.acts, Dispatch.median, withElem, wide, float32, exec, allocate]
  · exact hn _ (by simp)

/-- With two CUDA devices an operation into a given array runs on whichever device an array was
last created on: after creating an array on another device `m`, `sum(a, out)`, `copy(a, out)`,
`fill(a)`, `count_true(a)` and the hit search run on device `m` and access memory of device `n`. -/
theorem C112_wrong_device (cur n m : Nat) (hnm : n ≠ m) (c : Call)
    (hc : c ∈ [Call.reduceInto ⟨float32, ⟨.cuda, n⟩⟩ ⟨float32, ⟨.cuda, n⟩⟩,
      .unaryInto ⟨float32, ⟨.cuda, n⟩⟩ ⟨float32, ⟨.cuda, n⟩⟩, .fill ⟨float32, ⟨.cuda, n⟩⟩,
      .countTrue ⟨float32, ⟨.cuda, n⟩⟩, .find ⟨float32, ⟨.cuda, n⟩⟩ ⟨uint8, ⟨.cuda, n⟩⟩]) :
    ∃ l ∈ history true cur [.create ⟨float32, ⟨.cuda, m⟩⟩, c], l.place = .gpu m ∧ ¬ Placed l := by
  have hp : ∀ acc, (⟨float32, ⟨.cuda, n⟩⟩, Elem.f32) ∈ acc → ¬ Placed ⟨.gpu m, acc⟩ := by
    intro acc hm h
    have := h _ hm
    simp [Reachable, hnm] at this
  have hstep : ∀ c, history true cur [.create ⟨float32, ⟨.cuda, m⟩⟩, c] = (run true m c).1 := by
    intro c
    simp [history, run, exec, Call.acts, allocate]
  rw [hstep]
  simp only [List.mem_cons, List.not_mem_nil, or_false] at hc
  rcases hc with rfl | rfl | rfl | rfl | rfl
  · refine ⟨⟨.gpu m, [(⟨float32, ⟨.cuda, n⟩⟩, .f32), (⟨float32, ⟨.cuda, n⟩⟩, .f32)]⟩, ?_, rfl,
      hp _ (by simp)⟩
    simp [run, Call.acts, reduceInto, Dispatch.guard, onDeviceStrict, withElem, floatOnly, float32,
      exec, access]
  · refine ⟨⟨.gpu m, [(⟨float32, ⟨.cuda, n⟩⟩, .f32), (⟨float32, ⟨.cuda, n⟩⟩, .f32)]⟩, ?_, rfl,
      hp _ (by simp)⟩
    simp [run, Call.acts, unaryInto, onSame, onDevice, withElem, wide, float32, exec, access]
  · refine ⟨⟨.gpu m, [(⟨float32, ⟨.cuda, n⟩⟩, .f32)]⟩, ?_, rfl, hp _ (by simp)⟩
    simp [run, Call.acts, fill, onDeviceStrict, withElem, narrow, float32, exec, access]
  · refine ⟨⟨.gpu m, [(⟨float32, ⟨.cuda, n⟩⟩, .f32)]⟩, ?_, rfl, hp _ (by simp)⟩
    simp [run, Call.acts, countTrue, onDeviceStrict, withElem, narrow, float32, exec, access]
  · refine ⟨⟨.gpu m, [(⟨float32, ⟨.cuda, n⟩⟩, .f32), (⟨uint8, ⟨.cuda, n⟩⟩, .u8)]⟩, ?_, rfl,
      hp _ (by simp)⟩
    simp [run, Call.acts, find, float32, exec]

/-- Moving an array to the device it is on selects no device and never fails; moving it to another
CUDA device selects that device (in a library built with CUDA), so that the next operation into a given
array runs there; without CUDA the move throws. -/
theorem C112_move_selects (built : Bool) (cur : Nat) (a : Arr) :
    run built cur (.toDev a a.dev) = ([], cur, none) ∧
    ∀ n, a.dev ≠ ⟨.cuda, n⟩ →
      run true cur (.toDev a ⟨.cuda, n⟩) = ([], n, none) ∧
      run false cur (.toDev a ⟨.cuda, n⟩) = ([], cur, some .runtimeError) := by
  refine ⟨by simp [run, Call.acts, toDev, exec], fun n hn => ⟨?_, ?_⟩⟩ <;>
    simp [run, Call.acts, toDev, hn, exec, allocate]

/-- A drift plane that is in neither host nor CUDA memory, or in CUDA memory of a library built without
CUDA, is not searched: a `runtime_error`, with no memory touched. -/
theorem C112_find_refused (built : Bool) (cur : Nat) (p f : Arr) (h : p.dev.kind ≠ .cpu)
    (hb : p.dev.kind = .cuda → built = false) :
    run built cur (.find p f) = ([], cur, some .runtimeError) := by
  have e : Dispatch.find built p f = [.fail .runtimeError] := by
    unfold Dispatch.find
    split
    · exact absurd ‹_› h
    · rw [hb ‹_›]; rfl
    · rfl
  change exec built cur (Dispatch.find built p f) = _
  rw [e]; rfl

/-- Operations on arrays of different devices are refused, with no memory touched: arithmetic,
comparison, copies into a given array, and reductions into a given array. -/
theorem C112_mixed_devices_refused (built : Bool) (cur : Nat) (a b : Arr) (h : a.dev ≠ b.dev) :
    run built cur (.arith a b) = ([], cur, some .runtimeError) ∧
      (∀ l, run built cur (.compare l a b) = ([], cur, some .runtimeError)) ∧
      run built cur (.unaryInto a b) = ([], cur, some .runtimeError) ∧
      run built cur (.reduceInto a b) = ([], cur, some .runtimeError) ∧
      run built cur (.maxInto a b) = ([], cur, some .runtimeError) ∧
      (∀ o, run built cur (.maskedInto a b o) = ([], cur, some .runtimeError)) := by
  have h' : b.dev ≠ a.dev := fun e => h e.symm
  refine ⟨?_, fun l => ?_, ?_, ?_, ?_, fun o => ?_⟩
  · simp [run, Call.acts, arith, onSame, h, exec]
  · simp [run, Call.acts, compare, onSame, h, exec]
  · simp [run, Call.acts, unaryInto, onSame, h, exec]
  · simp [run, Call.acts, reduceInto, Dispatch.guard, h', exec]
  · simp [run, Call.acts, maxInto, Dispatch.guard, h', exec]
  · by_cases ho : o.dev = a.dev
    · simp [run, Call.acts, maskedInto, Dispatch.guard, h', ho, exec]
    · simp [run, Call.acts, maskedInto, Dispatch.guard, ho, exec]

/-- No kernel in a list of actions. -/
def NoKernel (acts : List Act) : Prop := ∀ x ∈ acts, ∀ acc, x ≠ .gpu acc

theorem NoKernel.nil : NoKernel [] := by intro x hx; cases hx

theorem NoKernel.cons {x r} (hx : ∀ acc, x ≠ .gpu acc) (h : NoKernel r) : NoKernel (x :: r) := by
  intro y hy
  rcases List.mem_cons.1 hy with rfl | hy
  · exact hx
  · exact h y hy

theorem NoKernel.alloc {a r} (h : NoKernel r) : NoKernel (.alloc a :: r) :=
  .cons (fun _ e => by cases e) h

theorem NoKernel.host {acc r} (h : NoKernel r) : NoKernel (.host acc :: r) :=
  .cons (fun _ e => by cases e) h

theorem NoKernel.fail {e r} (h : NoKernel r) : NoKernel (.fail e :: r) :=
  .cons (fun _ e => by cases e) h

theorem NoKernel.append {r s} (h : NoKernel r) (h' : NoKernel s) : NoKernel (r ++ s) := by
  intro x hx
  rcases List.mem_append.1 hx with hx | hx
  · exact h x hx
  · exact h' x hx

theorem NoKernel.withElem {o k} (h : ∀ e, NoKernel (k e)) : NoKernel (Dispatch.withElem o k) := by
  unfold Dispatch.withElem
  split
  · exact h _
  · exact .fail .nil

theorem NoKernel.guard {c k} (h : NoKernel k) : NoKernel (Dispatch.guard c k) := by
  unfold Dispatch.guard
  split
  · exact h
  · exact .fail .nil

theorem NoKernel.onDevice {d k} (h : NoKernel (k false)) :
    NoKernel (Dispatch.onDevice false d k) := by
  unfold Dispatch.onDevice
  split <;> first | exact h | exact .fail .nil

theorem NoKernel.onSame {a b k} (h : NoKernel (k false)) :
    NoKernel (Dispatch.onSame false a b k) := by
  unfold Dispatch.onSame
  split
  · exact .onDevice h
  · exact .fail .nil

theorem NoKernel.onDeviceStrict {d k} (h : NoKernel (k false)) :
    NoKernel (Dispatch.onDeviceStrict false d k) := by
  unfold Dispatch.onDeviceStrict
  split <;> first | exact h | exact .fail .nil

theorem exec_noKernel {acts : List Act} (h : NoKernel acts) (built : Bool) (cur : Nat) :
    ∀ l ∈ (exec built cur acts).1, l.place = .host := by
  induction acts generalizing cur with
  | nil => intro l hl; cases hl
  | cons x r ih =>
    intro l hl
    have hr : NoKernel r := fun x hx => h x (List.mem_cons_of_mem _ hx)
    cases x with
    | alloc a =>
      unfold exec at hl
      split at hl
      · exact ih hr _ l hl
      · cases hl
    | host acc =>
      rcases List.mem_cons.1 hl with rfl | hl
      · rfl
      · exact ih hr _ l hl
    | gpu acc => exact absurd rfl (h _ (List.mem_cons_self ..) acc)
    | fail e => cases hl

theorem unaryInto_noKernel (a o : Arr) : NoKernel (unaryInto false a o) :=
  .onSame (.withElem fun _ => .withElem fun _ => .host .nil)

theorem reduceInto_noKernel (a o : Arr) : NoKernel (reduceInto false a o) :=
  .guard (.onDeviceStrict (.withElem fun _ => .withElem fun _ => .host .nil))

theorem maxInto_noKernel (a o : Arr) : NoKernel (maxInto false a o) :=
  .guard (.onDeviceStrict (.guard (.withElem fun _ => .host .nil)))

theorem maskedInto_noKernel (a m o : Arr) : NoKernel (maskedInto false a m o) :=
  .guard (.guard (.onDeviceStrict (.withElem fun _ => .withElem fun _ => .guard (.host .nil))))

theorem meanStddevInto_noKernel (a om os : Arr) : NoKernel (meanStddevInto false a om os) :=
  .guard (.onDeviceStrict (.host .nil))

theorem maskedMeanStddevInto_noKernel (a m om os : Arr) :
    NoKernel (maskedMeanStddevInto false a m om os) :=
  .guard (.guard (.onDeviceStrict (.guard (.host .nil))))

theorem acts_noKernel (c : Call) : NoKernel (c.acts false) := by
  cases c with
  | create a => exact .alloc .nil
  | toDev a d =>
    change NoKernel (Dispatch.toDev a d)
    unfold Dispatch.toDev
    split
    · exact .nil
    · exact .alloc .nil
  | arith a b =>
    exact .onSame (.alloc (.withElem fun _ => .withElem fun _ => .withElem fun _ => .host .nil))
  | arithScalar a =>
    change NoKernel (Dispatch.arithScalar false a)
    unfold Dispatch.arithScalar
    exact .onDevice (.alloc (.withElem fun _ => .withElem fun _ => .host .nil))
  | compare l a b => exact .onSame (.alloc (.withElem fun _ => .withElem fun _ => .host .nil))
  | compareScalar l a =>
    change NoKernel (Dispatch.compareScalar false l a)
    unfold Dispatch.compareScalar
    exact .onDevice (.alloc (.withElem fun _ => .host .nil))
  | unary a => exact .alloc (unaryInto_noKernel a a)
  | unaryInto a o => exact unaryInto_noKernel a o
  | abs a => exact .alloc (.withElem fun _ => .withElem fun _ => .host .nil)
  | fill o =>
    change NoKernel (Dispatch.fill false o)
    unfold Dispatch.fill
    exact .onDeviceStrict (.withElem fun _ => .host .nil)
  | reduce a => exact .alloc (reduceInto_noKernel a a)
  | reduceInto a o => exact reduceInto_noKernel a o
  | max a => exact .alloc (maxInto_noKernel a a)
  | maxInto a o => exact maxInto_noKernel a o
  | masked a m => exact .alloc (maskedInto_noKernel a m a)
  | maskedInto a m o => exact maskedInto_noKernel a m o
  | meanStddev a => exact .alloc (.alloc (meanStddevInto_noKernel a a a))
  | meanStddevInto a om os => exact meanStddevInto_noKernel a om os
  | maskedMeanStddev a m => exact .alloc (.alloc (maskedMeanStddevInto_noKernel a m a a))
  | maskedMeanStddevInto a m om os => exact maskedMeanStddevInto_noKernel a m om os
  | var a => exact .append (.alloc (reduceInto_noKernel a a)) (.alloc (unaryInto_noKernel a a))
  | moment a => exact .alloc (.withElem fun _ => .withElem fun _ => .alloc (.host .nil))
  | momentInto a o => exact .withElem fun _ => .withElem fun _ => .alloc (.host .nil)
  | median a => exact .alloc (.withElem fun _ => .withElem fun _ => .host (.host .nil))
  | countTrue a =>
    change NoKernel (Dispatch.countTrue false a)
    unfold Dispatch.countTrue
    exact .onDeviceStrict (.withElem fun _ => .host .nil)
  | power a => exact .guard (.alloc (.onDevice (.host .nil)))
  | integrate d m =>
    change NoKernel (Dispatch.integrate false d m)
    unfold Dispatch.integrate
    split
    · exact .alloc (.alloc (.alloc (.alloc (.host .nil))))
    · exact .nil
    · exact .nil
  | find p f =>
    change NoKernel (Dispatch.find false p f)
    unfold Dispatch.find
    split
    · exact .host .nil
    · exact .fail .nil
    · exact .fail .nil

/-- In a library built without CUDA no call runs a kernel, whatever devices its arrays claim. -/
theorem C112_without_cuda (cur : Nat) (c : Call) :
    ∀ l ∈ (run false cur c).1, l.place = .host :=
  exec_noKernel (acts_noKernel c) false cur

/-! ## The hypotheses can be met -/

/-- A session with two CUDA devices that only creates new results. -/
example : ∀ l ∈ history true 0 [.create ⟨float32, ⟨.cuda, 0⟩⟩, .create ⟨float32, ⟨.cuda, 1⟩⟩,
    .arithScalar ⟨float32, ⟨.cuda, 0⟩⟩, .reduce ⟨float32, ⟨.cuda, 1⟩⟩], Placed l := by
  simp [history, run, Call.acts, exec, allocate, arithScalar, onDevice, withElem, wide, float32,
    reduce, reduceInto, Dispatch.guard, onDeviceStrict, floatOnly, access, Placed, Reachable]

/-- A session on device 1: the hypotheses of `C112_single_device_partial` hold and code does run
there. -/
example : (∀ c ∈ [Call.create ⟨float32, ⟨.cuda, 1⟩⟩, .fill ⟨float32, ⟨.cuda, 1⟩⟩], c.Uses 1) ∧
    history true 1 [.create ⟨float32, ⟨.cuda, 1⟩⟩, .fill ⟨float32, ⟨.cuda, 1⟩⟩] =
      [⟨.gpu 1, [(⟨float32, ⟨.cuda, 1⟩⟩, .f32)]⟩] := by
  constructor
  · intro c hc
    simp only [List.mem_cons, List.not_mem_nil, or_false] at hc
    rcases hc with rfl | rfl <;> simp [Call.Uses, Call.arrays]
  · decide

/-- An unsupported type is refused, a supported one is not. -/
example : run false 0 (.arith ⟨⟨.float, 64, 1⟩, ⟨.cpu, 0⟩⟩ ⟨float32, ⟨.cpu, 0⟩⟩) =
      ([], 0, some .runtimeError) ∧
    (run false 0 (.arith ⟨⟨.uint, 8, 1⟩, ⟨.cpu, 0⟩⟩ ⟨float32, ⟨.cpu, 0⟩⟩)).2.2 = none := by
  decide

end Bliss.Dispatch
