import Verif.Stat.Model
import Verif.Float.Rounding

/-!
# Model of the flaggers and estimators on one coarse channel

`bliss/flaggers/{filter_rolloff,magnitude,spectral_kurtosis,sigmaclip}.cpp`,
`bliss/estimators/{spectral_kurtosis,noise_estimate}.cpp`, `bliss/preprocess/normalize.cpp` and
`bliss/core/noise_power.cpp`.

Spectra (`float`) and masks (`uint8_t`) live in one memory: an element is a `Val`. The element type
of an array is the one its elements have; operations applied to elements of the wrong kind are given
an arbitrary value. All arrays are on the CPU.
-/

namespace Bliss.Flag

open Bliss.Nd Bliss.Stat

/-- An element of an array: a `float` or a `uint8_t`. -/
inductive Val (F : Type) where
  | num (x : F)
  | flag (b : UInt8)
deriving DecidableEq

variable {F D : Type}

/-- `uint8_t` plus `uint8_t`, stored as `uint8_t` (`arithmetic_cpu_impl.hpp`: computed in `int`, then
cast, so it wraps around). -/
def Val.add : Val F → Val F → Val F
  | .flag a, .flag b => .flag (a + b)
  | v, _ => v

/-- `uint8_t` times a `uint8_t` scalar, stored as `uint8_t`. -/
def Val.mulFlag (k : UInt8) : Val F → Val F
  | .flag b => .flag (b * k)
  | v => v

/-- A comparison of a `float` with a scalar: a `uint8_t` 0 or 1 (`comparison_cpu.cpp:19-31`). -/
def Val.cmp (p : F → Bool) : Val F → Val F
  | .num x => .flag (if p x then 1 else 0)
  | v => v

/-- `mask == 0` (`comparison_cpu.cpp`, `equal_to` with a scalar). -/
def Val.isZero : Val F → Val F
  | .flag b => .flag (if b = 0 then 1 else 0)
  | v => v

/-- `count_true` looks at elements as Booleans (`statistical_cpu.cpp:1040`). -/
def Val.truth : Val F → Bool
  | .flag b => b ≠ 0
  | .num _ => true

/-- `float` arithmetic on elements. -/
def Val.map2 (f : F → F → F) : Val F → Val F → Val F
  | .num x, .num y => .num (f x y)
  | v, _ => v

def Val.map1 (f : F → F) : Val F → Val F
  | .num x => .num (f x)
  | v => v

/-- `core/flag_values.hpp:9-15`. -/
def rolloffFlag : UInt8 := 1
def lowSkFlag : UInt8 := 2
def highSkFlag : UInt8 := 4
def magnitudeFlag : UInt8 := 16
def sigmaClipFlag : UInt8 := 32

/-! ## Filter rolloff -/

/-- One of the two statements `slice(flags, s) = slice(flags, s) + uint8_t(1)`
(`filter_rolloff.cpp:19` and `20`): the sum is a new array, which is then copied into the slice. -/
def bump (mask : Arr) (start stop : Int) (junk : Int → Val F) (h : Heap (Val F)) :
    Outcome (Heap (Val F)) := do
  let v ← slice mask 1 start stop 1
  let r ← scalarOp (fun x => x.add (.flag rolloffFlag)) h v junk
  assignSlice id r.1 v r.2

/-- The body of the lambda (`filter_rolloff.cpp:15-21`); `width` computes the number of channels
from `nchans`. `shape()[1]` of an array with fewer dimensions is undefined. -/
def rolloff (width : Int → Int) (mask : Arr) (junk1 junk2 : Int → Val F) (h : Heap (Val F)) :
    Outcome (Heap (Val F)) :=
  match mask.shape[1]? with
  | none => .ub
  | some nchans => do
    let h1 ← bump mask 0 (width nchans) junk1 h
    bump mask (-(width nchans)) nchans junk2 h1

/-- `int64_t one_sided_channels = std::round(nchans * rolloff_width)` (`filter_rolloff.cpp:18`): the
product is computed in `float`. -/
def oneSided (R : Float.Rounding 24) (w : ℚ) (nchans : Int) : Int :=
  Float.roundAway (R.r (R.r nchans * w))

/-- Where a channel's mask comes from: an array, or a function called at every access
(`ndarray_deferred.cpp`, policies `memoize` of an array and `lazy`). -/
inductive MaskSrc (F : Type) where
  | arr (a : Arr)
  | fn (f : Heap (Val F) → Outcome (Heap (Val F) × Arr))

/-- `coarse_channel::mask()` (`coarse_channel.cpp:217-221`). -/
def MaskSrc.get (s : MaskSrc F) (h : Heap (Val F)) : Outcome (Heap (Val F) × Arr) :=
  match s with
  | .arr a => .ok (h, a)
  | .fn f => f h

/-- `flag_filter_rolloff(coarse_channel, width)` (`filter_rolloff.cpp:12-26`): the mask is read once
and captured; the new mask is a function that modifies the captured array in place. -/
def flagRolloff (width : Int → Int) (junk1 junk2 : Int → Val F) (s : MaskSrc F)
    (h : Heap (Val F)) : Outcome (Heap (Val F) × MaskSrc F) := do
  let r ← s.get h
  pure (r.1, .fn (fun h' => do
    let h'' ← rolloff width r.2 junk1 junk2 h'
    pure (h'', r.2)))

/-- `n` further accesses to the mask, then one more whose result is returned. -/
def readMask (s : MaskSrc F) : Nat → Heap (Val F) → Outcome (Heap (Val F) × Arr)
  | 0, h => s.get h
  | n + 1, h => do
    let r ← s.get h
    readMask s n r.1

/-! ## Magnitude -/

/-- `flag_magnitude(ndarray, threshold)` (`magnitude.cpp:9-12`); `gt x` is `x > threshold`. -/
def magnitudeFlags (gt : F → Bool) (data : Arr) (j1 j2 : Int → Val F) (h : Heap (Val F)) :
    Outcome (Heap (Val F) × Arr) := do
  let r ← scalarOp (Val.cmp gt) h data j1
  scalarOp (Val.mulFlag magnitudeFlag) r.1 r.2 j2

/-- `flag_magnitude(coarse_channel, threshold)` (`magnitude.cpp:19-26`): the new mask. -/
def flagMagnitude (gt : F → Bool) (data mask : Arr) (j1 j2 j3 : Int → Val F) (h : Heap (Val F)) :
    Outcome (Heap (Val F) × Arr) := do
  let m ← magnitudeFlags gt data j1 j2 h
  binOp Val.add m.1 mask m.2 j3

/-! ## Spectral kurtosis -/

/-- The `float` operations of the estimator. -/
structure SkOps (F : Type) where
  add : F → F → F
  mul : F → F → F
  div : F → F → F
  sub : F → F → F
  ofInt : Int → F
  zero : F

/-- The `float` sum of `statistical_cpu.cpp:919-1010` on `Val` elements. Only `zeroV` and `addV` are
used by `sum`. -/
def skStat (o : SkOps F) : StatOps (Val F) Unit where
  toD _ := ()
  toV _ := .num o.zero
  zero := ()
  add _ _ := ()
  sub _ _ := ()
  mul _ _ := ()
  div _ _ := ()
  ofInt _ := ()
  sqrt _ := ()
  clip _ := ()
  zeroV := .num o.zero
  addV := Val.map2 o.add
  gtV _ _ := false
  lowest := .num o.zero

/-- `estimate_spectral_kurtosis(ndarray, N, M, d)` (`estimators/spectral_kurtosis.cpp:9-15`).
`M * N` is computed in `int32_t` (overflow is undefined), the rest in `float`. -/
def spectralKurtosis (o : SkOps F) (N M : Int) (d : F) (data : Arr) (j : Nat → Int → Val F)
    (h : Heap (Val F)) : Outcome (Heap (Val F) × Arr) :=
  if M * N < -2 ^ 31 ∨ 2 ^ 31 ≤ M * N then .ub
  else do
    let t ← Stat.sum (skStat o) data [0] (j 0) h
    let s1 ← unaryOp (Val.map1 (fun x => o.mul x x)) t.1 t.2 (j 1)
    let u ← unaryOp (Val.map1 (fun x => o.mul x x)) s1.1 data (j 2)
    let s2 ← Stat.sum (skStat o) u.2 [0] (j 3) u.1
    let q ← binOp (Val.map2 o.div) s2.1 s2.2 s1.2 (j 4)
    let m ← scalarOp (Val.map1 (fun x => o.mul x (o.ofInt M))) q.1 q.2 (j 5)
    let m1 ← scalarOp (Val.map1 (fun x => o.sub x (o.ofInt 1))) m.1 m.2 (j 6)
    let c := o.div (o.add (o.mul (o.ofInt (M * N)) d) (o.ofInt 1)) (o.ofInt (M - 1))
    scalarOp (Val.map1 (fun x => o.mul x c)) m1.1 m1.2 (j 7)

/-- `flag_spectral_kurtosis(ndarray, …)` (`flaggers/spectral_kurtosis.cpp:12-25`). -/
def skFlags (o : SkOps F) (lt gt : F → Bool) (N M : Int) (d : F) (data : Arr)
    (j : Nat → Int → Val F) (h : Heap (Val F)) : Outcome (Heap (Val F) × Arr) := do
  let sk ← spectralKurtosis o N M d data j h
  let lo ← scalarOp (Val.cmp lt) sk.1 sk.2 (j 8)
  let lo2 ← scalarOp (Val.mulFlag lowSkFlag) lo.1 lo.2 (j 9)
  let hi ← scalarOp (Val.cmp gt) lo2.1 sk.2 (j 10)
  let hi4 ← scalarOp (Val.mulFlag highSkFlag) hi.1 hi.2 (j 11)
  let s ← binOp Val.add hi4.1 lo2.2 hi4.2 (j 12)
  let r ← unsqueeze s.2 0
  pure (s.1, r)

/-- `flag_spectral_kurtosis(coarse_channel, …)` (`flaggers/spectral_kurtosis.cpp:27-45`): the new
mask. `M` is the number of time steps, `N` comes from the channel's metadata. -/
def flagSk (o : SkOps F) (lt gt : F → Bool) (N : Int) (d : F) (data mask : Arr)
    (j : Nat → Int → Val F) (h : Heap (Val F)) : Outcome (Heap (Val F) × Arr) :=
  match data.shape[0]? with
  | none => .ub
  | some M => do
    let f ← skFlags o lt gt N M d data j h
    binOp Val.add f.1 mask f.2 (j 13)

/-! ## Noise estimation -/

/-- The masks of a memory, as the masked reductions see them. -/
def flagHeap (h : Heap (Val F)) : Heap UInt8 where
  mem b i := match h.mem b i with
    | some (.flag x) => some x
    | _ => none
  next := h.next

/-- `StatOps` on elements. -/
def liftOps (o : StatOps F D) : StatOps (Val F) D where
  toD v := match v with
    | .num x => o.toD x
    | .flag _ => o.zero
  toV d := .num (o.toV d)
  zero := o.zero
  add := o.add
  sub := o.sub
  mul := o.mul
  div := o.div
  ofInt := o.ofInt
  sqrt := o.sqrt
  clip := o.clip
  zeroV := .num o.zeroV
  addV := Val.map2 o.addV
  gtV v w := match v, w with
    | .num x, .num y => o.gtV x y
    | _, _ => false
  lowest := .num o.lowest

/-- `correct_mask` (`noise_estimate.cpp:105-131`): nothing but the check. -/
def correctMask (mask : Arr) (junk : Int → Val F) (h : Heap (Val F)) : Outcome (Heap (Val F)) := do
  let z ← scalarOp Val.isZero h mask junk
  let n ← countTrue Val.truth z.1 z.2
  if n = 0 then .throws .runtimeError else pure z.1

/-- `noise_power_estimator` (`noise_estimate.hpp`). -/
inductive Estimator where
  | stddev
  | mad
deriving DecidableEq

/-- `noise_stats`: the two arrays it holds (`core/noise_power.hpp:18-40`); none after a default
construction. -/
structure NoiseStats where
  floor : Option Arr
  power : Option Arr

/-- `estimate_noise_power(coarse_channel, options)` (`noise_estimate.cpp:137-169`). -/
def estimateNoise (o : StatOps F D) (method : Estimator) (masked : Bool) (data mask : Arr)
    (j : Nat → Int → Val F) (h : Heap (Val F)) : Outcome (Heap (Val F) × NoiseStats) :=
  if masked then do
    let h1 ← correctMask mask (j 0) h
    match method with
    | .mad => .throws .runtimeError
    | .stddev => do
      let r ← maskedMeanStddev (liftOps o) data mask (flagHeap h1) [] (j 1) (j 2) h1
      pure (r.1, ⟨some r.2.1, some r.2.2⟩)
  else match method with
    | .mad => .ok (h, ⟨none, none⟩)
    | .stddev => do
      let r ← meanStddev (liftOps o) data [] (j 1) (j 2) h
      pure (r.1, ⟨some r.2.1, some r.2.2⟩)

/-- `scalarize<float>()` of a stored estimate (`noise_power.cpp:11-13,23-25`): element 0; of a
default-constructed array this is undefined. -/
def scalar (h : Heap (Val F)) (a : Option Arr) : Outcome F :=
  match a with
  | none => .ub
  | some a => do
    let v ← h.load a.blk a.base
    match v with
    | .num x => .ok x
    | .flag _ => .ub

def NoiseStats.noiseFloor (s : NoiseStats) (h : Heap (Val F)) : Outcome F := scalar h s.floor

def NoiseStats.noisePower (s : NoiseStats) (h : Heap (Val F)) : Outcome F := scalar h s.power

/-- `noise_amplitude` (`noise_power.cpp:19-21`): the square root of the power. -/
def NoiseStats.noiseAmplitude (s : NoiseStats) (sqrtF : F → F) (h : Heap (Val F)) : Outcome F := do
  let p ← scalar h s.power
  pure (sqrtF p)

/-! ## Normalization -/

/-- `normalize(coarse_channel)` (`normalize.cpp:16-22`): the new data. -/
def normalize (o : StatOps F D) (divF : F → F → F) (data : Arr) (j1 j2 : Int → Val F)
    (h : Heap (Val F)) : Outcome (Heap (Val F) × Arr) := do
  let m ← Stat.max (liftOps o) data [] j1 h
  binOp (Val.map2 divF) m.1 data m.2 j2

/-! ## Sigma clipping -/

/-- Element types an array may have, as far as `flag_sigmaclip` distinguishes them. -/
inductive DType where
  | float32
  | uint8
deriving DecidableEq

/-- `masked_mean_stddev` dispatches on the element type of the mask (`statistical_cpu.cpp:608-744`
through `dispatcher.hpp`): only `uint8_t` masks are accepted. -/
def typedStats {S : Type} (maskType : DType) (run : Outcome S) : Outcome S :=
  if maskType = .uint8 then run else .throws .runtimeError

/-- The loop of `flag_sigmaclip(ndarray, …)` (`sigmaclip.cpp:17-29`), over the statistics and the
flags only: `stats m` is `masked_mean_stddev(data, m)`, `clip s` are the flags recomputed from the
statistics `s`, `close` is the test of lines 22-23. The second component of the result counts the
iterations. The flags of comparisons are `uint8_t`. -/
def clipLoop {S M : Type} (stats : M → Outcome S) (clip : S → Outcome M) (close : S → S → Bool) :
    Nat → S → M → Outcome (M × Nat)
  | 0, _, m => .ok (m, 0)
  | n + 1, s, _ => do
    let m' ← clip s
    let s' ← stats m'
    if close s' s then pure (m', 1)
    else do
      let r ← clipLoop stats clip close n s' m'
      pure (r.1, r.2 + 1)

/-- `flag_sigmaclip(ndarray, max_iter, low, high)` (`sigmaclip.cpp:11-32`) without the final
multiplication: the first mask has the element type of the *data*. A negative `max_iter` runs no
iteration. -/
def sigmaclip {S M : Type} (dataType : DType) (stats : M → Outcome S) (clip : S → Outcome M)
    (close : S → S → Bool) (zero : M) (maxIter : Int) : Outcome (M × Nat) := do
  let s ← typedStats dataType (stats zero)
  clipLoop stats clip close maxIter.toNat s zero

/-- `data < bound` where `bound` is a `mean ± k·stddev`, an array of shape `{1}`
(`sigmaclip.cpp:19`, `comparison_cpu.cpp:109-121`): the output has the shape of the data. -/
def clipSide (p : F → F → Bool) (data bound : Arr) (junk : Int → Val F) (h : Heap (Val F)) :
    Outcome (Heap (Val F) × Arr) := do
  let r := alloc h data.shape junk
  let h2 ← binInto (fun x y => match x, y with
    | .num a, .num b => .flag (if p a b then 1 else 0)
    | v, _ => v) r.1 r.2 data bound
  pure (h2, r.2)

end Bliss.Flag
