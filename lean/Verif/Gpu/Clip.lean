import Verif.Gpu.SameAsHost
import Verif.Gpu.ReduceMore
import Verif.Flag.Clip
import Verif.Misc.Move

/-!
# C145: normalization and sigma clipping on a CUDA device

`bliss_find_hits` works on `cuda:0` unless told otherwise. There the steps of `normalize` and
`flag_sigmaclip` are kernel launches, and the arrays of shape `{1}` they combine with the data of a
coarse channel are broadcast by strides. The host side of each launch computes a broadcast *shape*
too, which reads past the end of a vector when the ranks differ. On the CPU that shape is used; on
the device it is not. So the calls are undefined as written (`C145_standard_undefined`), and if
reading past the end has no other effect than delivering some number, they do what is asked of them
(`C145_normalize_partial`, `C145_clip_partial`).
-/

namespace Bliss.Gpu

open Bliss.Nd Bliss.Flag

/-! ## Sequences of device calls -/

/-- The ways a sequence of calls can end. Launches end differently under different schedules and
with different contents of fresh memory. -/
def Run (α : Type) : Type := Outcome α → Prop

/-- No call. -/
def Run.ret {α : Type} (a : α) : Run α := fun o => o = .ok a

/-- Calls in sequence: an exception or undefined behaviour ends it. -/
def Run.bind {α β : Type} (p : Run α) (k : α → Run β) : Run β := fun o =>
  ∃ o₁, p o₁ ∧ match o₁ with
    | .ok a => k a o
    | .throws e => o = .throws e
    | .ub => o = .ub

instance : Monad Run where
  pure := Run.ret
  bind := Run.bind

/-- Under every schedule the calls end well, and the result satisfies `Q`. -/
def Always {α : Type} (p : Run α) (Q : α → Prop) : Prop :=
  (∃ o, p o) ∧ ∀ o, p o → ∃ a, o = .ok a ∧ Q a

theorem Always.ret {α : Type} {a : α} {Q : α → Prop} (h : Q a) : Always (pure a : Run α) Q :=
  ⟨⟨.ok a, rfl⟩, fun _ ho => ⟨a, ho, h⟩⟩

theorem Always.bind {α β : Type} {p : Run α} {k : α → Run β} {Q : α → Prop} {R : β → Prop}
    (hp : Always p Q) (hk : ∀ a, Q a → Always (k a) R) : Always (p >>= k) R := by
  obtain ⟨⟨o, ho⟩, hall⟩ := hp
  refine ⟨?_, ?_⟩
  · obtain ⟨a, rfl, ha⟩ := hall o ho
    obtain ⟨⟨o', ho'⟩, -⟩ := hk a ha
    exact ⟨o', .ok a, ho, ho'⟩
  · rintro o' ⟨o₁, h1, h2⟩
    obtain ⟨a, rfl, ha⟩ := hall o₁ h1
    exact (hk a ha).2 o' h2

theorem Always.mono {α : Type} {p : Run α} {Q R : α → Prop} (h : Always p Q)
    (hQ : ∀ a, Q a → R a) : Always p R :=
  ⟨h.1, fun o ho => by obtain ⟨a, e, ha⟩ := h.2 o ho; exact ⟨a, e, hQ a ha⟩⟩

/-! ## Model -/

section Model

variable {V : Type}

/-- The host side of a launch with two operands and an output of shape `shape`, as long as reading
past the end of a shape has no effect: the broadcast shapes of the operands are computed and not used
(`elementwise_binary_op_cuda.cuh:70-107`, `shape_helpers.cpp:44-72`). -/
def looseInto (h : Heap V) (shape : List Int) (a b : Arr) (junk : Int → V) :
    Outcome (Heap V × Arr × List Operand) := do
  let (h1, out) := alloc h shape junk
  if binCheck a b then .throws .runtimeError
  else do
    let sa ← bcStrides a.shape a.strides out.shape
    let sb ← bcStrides b.shape b.strides out.shape
    pure (h1, out, [⟨a.blk, a.base, sa⟩, ⟨b.blk, b.base, sb⟩])

/-- `a + b`, `a - b`, `a / b` on the device (`arithmetic_cuda.cu:21-66`). -/
def looseHost (h : Heap V) (a b : Arr) (junk : Int → V) : Outcome (Heap V × Arr × List Operand) := do
  let shape ← expandShapes a.shape b.shape
  looseInto h shape a b junk

/-- The arithmetic operations, under any schedule. -/
def devBinary (op : V → V → V) (h : Heap V) (a b : Arr) : Run (Heap V × Arr) := fun o =>
  ∃ junk, Device (looseHost h a b junk) (onPair op (junk 0)) o

/-- `a < b` and `a > b` on the device: the result has the shape of `a`
(`comparison_cuda.cu:19-32,72-85`). -/
def devCompare (op : V → V → V) (h : Heap V) (a b : Arr) : Run (Heap V × Arr) := fun o =>
  ∃ junk, Device (looseInto h a.shape a b junk) (onPair op (junk 0)) o

/-- An operation with a scalar on the device (`arithmetic_scalar_cuda.cu:21-90`). -/
def devScalar (f : V → V) (h : Heap V) (a : Arr) : Run (Heap V × Arr) := fun o =>
  ∃ junk, GpuUnary f h a junk o

end Model

section Clip

variable {F : Type}

/-- The blocks of numbers. -/
def nums (h : Heap (Val F)) : Heap F where
  mem b i := match h.mem b i with
    | some (.num x) => some x
    | _ => none
  next := h.next

/-- The blocks of flags. -/
def bytes (h : Heap (Val F)) : Heap UInt8 where
  mem b i := match h.mem b i with
    | some (.flag x) => some x
    | _ => none
  next := h.next

/-- The heap after a kernel that works on numbers: what it left of them, and the flags. -/
def withNums (h : Heap (Val F)) (h' : Heap F) : Heap (Val F) where
  mem b i := match h'.mem b i with
    | some x => some (.num x)
    | none => h.mem b i
  next := h'.next

/-- `masked_mean_stddev(data, mask)` on the device (`statistical.cpp:279-323`,
`statistical_cuda.cu:1561-1563`). -/
def devStats (o : GpuOps F) (h : Heap (Val F)) (data mask : Arr) :
    Run (Heap (Val F) × Arr × Arr) := fun r =>
  ∃ j1 j2 sh r', GpuReduce2 (fun out out2 => maskedMeanStddevKernel o data mask out out2 [])
    (nums h) (bytes h) data [] j1 j2 sh r' ∧
    r = r' >>= fun x => pure (withNums h x.1, x.2.1, x.2.2)

/-- `max(data)` on the device (`statistical.cpp`, `statistical_cuda.cu`, as in C85). -/
def devMax (o : GpuOps F) (h : Heap (Val F)) (data : Arr) : Run (Heap (Val F) × Arr) := fun r =>
  ∃ junk sh r', GpuMasked (fun out => maxKernel o data out []) (nums h) (bytes h) data [] junk sh r' ∧
    r = r' >>= fun x => pure (withNums h x.1, x.2)

/-- `scalarize<float>()` (`ndarray.cpp:215-224`). -/
def devScalarize (B : Move.Build) (dev : Bliss.Device.Dev) (h : Heap (Val F)) (a : Arr) : Run F := fun o =>
  ∃ junk, o = Move.scalarize B h a dev junk >>= fun v => match v with
    | .num x => .ok x
    | .flag _ => .ub

/-- The comparison of two numbers: a `uint8_t` 0 or 1. -/
def cmp2 (p : F → F → Bool) : Val F → Val F → Val F
  | .num x, .num y => .flag (if p x y then 1 else 0)
  | v, _ => v

/-- `normalize(cc)` on the device, without storing the data in the channel
(`preprocess/normalize.cpp:15-21`). -/
def devNormalize (o : GpuOps F) (h : Heap (Val F)) (data : Arr) : Run (Heap (Val F) × Arr) := do
  let (h, norm) ← devMax o h data
  devBinary (Val.map2 o.div) h data norm

/-- `(data < (mean - stddev * low)) + (data > (mean + stddev * high))` (`flaggers/sigmaclip.cpp:19`).
Simplified: the operands are evaluated from left to right; every order gives the same elements. -/
def roundMask (o : GpuOps F) (low high : F) (h : Heap (Val F)) (data mean stddev : Arr) :
    Run (Heap (Val F) × Arr) := do
  let (h, sl) ← devScalar (Val.map1 fun x => o.mul x low) h stddev
  let (h, lo) ← devBinary (Val.map2 o.sub) h mean sl
  let (h, below) ← devCompare (cmp2 fun x y => o.gt y x) h data lo
  let (h, sh) ← devScalar (Val.map1 fun x => o.mul x high) h stddev
  let (h, hi) ← devBinary (Val.map2 o.add) h mean sh
  let (h, above) ← devCompare (cmp2 fun x y => o.gt x y) h data hi
  devBinary Val.add h below above

/-- The loop (`flaggers/sigmaclip.cpp:17-29`); `near x` is `std::abs(x) < eps`. -/
def devClipLoop (o : GpuOps F) (near : F → Bool) (B : Move.Build) (dev : Bliss.Device.Dev) (low high : F)
    (data : Arr) : Nat → Heap (Val F) → Arr → Arr → Arr → Run (Heap (Val F) × Arr)
  | 0, h, mask, _, _ => pure (h, mask)
  | n + 1, h, _, mean, stddev => do
    let (h, mask) ← roundMask o low high h data mean stddev
    let (h, newMean, newStd) ← devStats o h data mask
    let (h, dm) ← devBinary (Val.map2 o.sub) h newMean mean
    let x ← devScalarize B dev h dm
    if near x then do
      let (h, ds) ← devBinary (Val.map2 o.sub) h newStd stddev
      let y ← devScalarize B dev h ds
      if near y then pure (h, mask)
      else devClipLoop o near B dev low high data n h mask newMean newStd
    else devClipLoop o near B dev low high data n h mask newMean newStd

/-- `flag_sigmaclip(data, max_iter, low, high)` (`flaggers/sigmaclip.cpp:11-32`). Simplified: the
first mask holds zero bytes. In the code it holds as many zeros of the element type of the data, which
the kernel reads as bytes (C62 for what the CPU makes of that), and which a run without iterations
would return. -/
def devSigmaclip (o : GpuOps F) (near : F → Bool) (B : Move.Build) (dev : Bliss.Device.Dev) (low high : F)
    (maxIter : Int) (h : Heap (Val F)) (data : Arr) : Run (Heap (Val F) × Arr) := do
  let (h, mask) := alloc h data.shape fun _ => .flag 0
  let (h, mean, stddev) ← devStats o h data mask
  let (h, mask) ← devClipLoop o near B dev low high data maxIter.toNat h mask mean stddev
  devScalar (Val.mulFlag sigmaClipFlag) h mask

/-- The new mask of the channel (`flaggers/sigmaclip.cpp:34-48`). -/
def devClipChannel (o : GpuOps F) (near : F → Bool) (B : Move.Build) (dev : Bliss.Device.Dev) (low high : F)
    (maxIter : Int) (h : Heap (Val F)) (data flags : Arr) : Run (Heap (Val F) × Arr) := do
  let (h, rfi) ← devSigmaclip o near B dev low high maxIter h data
  devBinary Val.add h flags rfi

end Clip

/-! ## Specification -/

section Spec

variable (sqrt : ℚ → ℚ) (low high eps : ℚ) (X : List Int → ℚ) (cells : List (List Int))

/-- The mean of the samples `u`. -/
def meanOf (u : List (List Int)) : ℚ := (u.map X).sum / u.length

/-- The standard deviation of the samples `u`. -/
def devOf (u : List (List Int)) : ℚ := sqrt (popVar X u)

/-- The samples flagged after `k` rounds: none at first, then those that lie more than `low`
deviations below or `high` deviations above the mean of the samples not flagged so far. -/
def flagged : Nat → List Int → Bool
  | 0, _ => false
  | k + 1, j =>
    let u := cells.filter fun i => !flagged k i
    decide (X j < meanOf X u - devOf sqrt X u * low) || decide (meanOf X u + devOf sqrt X u * high < X j)

/-- The samples not flagged after `k` rounds. -/
def kept (k : Nat) : List (List Int) := cells.filter fun i => !flagged sqrt low high X cells k i

/-- Round `k + 1` changes mean and deviation by less than `eps`. -/
def Settled (k : Nat) : Prop :=
  |meanOf X (kept sqrt low high X cells (k + 1)) - meanOf X (kept sqrt low high X cells k)| < eps ∧
  |devOf sqrt X (kept sqrt low high X cells (k + 1)) -
    devOf sqrt X (kept sqrt low high X cells k)| < eps

/-- `n` is the number of rounds: the first after which mean and deviation are settled, or the
largest allowed. -/
def Rounds (maxIter : Int) (n : Nat) : Prop :=
  0 < n ∧ (n : Int) ≤ maxIter ∧ (∀ k, k + 1 < n → ¬ Settled sqrt low high eps X cells k) ∧
    ((n : Int) = maxIter ∨ Settled sqrt low high eps X cells (n - 1))

end Spec

/-- `cells` lists every index of an array of shape `shape` once. -/
def Lists (shape : List Int) (cells : List (List Int)) : Prop :=
  cells.Nodup ∧ ∀ j, j ∈ cells ↔ ValidIdx shape j

/-- The data of a coarse channel on the device: no empty dimension, one to four dimensions, less than
2³¹ samples, at the start of its memory. -/
structure OnDevice {V : Type} (h : Heap V) (a : Arr) : Prop where
  pos : ∀ s ∈ a.shape, 1 ≤ s
  rank : 1 ≤ a.shape.length ∧ a.shape.length ≤ 4
  size : a.shape.foldl (· * ·) 1 < 2 ^ 31
  start : a.base = 0
  narrow : Narrow a
  live : a.blk < h.next

/-! ## Single calls -/

section Calls

variable {V : Type}

/-- A fresh array, with what the next call needs. -/
structure Made (h h' : Heap V) (r : Arr) (s : List Int) (A : List Int → V) : Prop extends
    Good h h' r s A where
  start : r.base = 0
  narrow : Narrow r

theorem expandRev_nil_right {s : List Int} (hs : ∀ x ∈ s, 1 ≤ x) : expandRev s [] = .ok s := by
  induction s with
  | nil => rfl
  | cons x xs ih =>
    have hx := hs x (by simp)
    rw [expandRev, ih (fun y hy => hs y (by simp [hy]))]
    simp [hx]

theorem expandRev_self {s : List Int} : expandRev s s = .ok s := by
  induction s with
  | nil => rfl
  | cons x xs ih => rw [expandRev, if_neg (by simp), ih]; simp

theorem expandShapes_one {s : List Int} (hs : ∀ x ∈ s, 1 ≤ x) (hne : s ≠ []) :
    expandShapes s [1] = .ok s := by
  unfold expandShapes
  obtain ⟨x, xs, hx⟩ := List.exists_cons_of_ne_nil (fun e => hne (List.reverse_eq_nil_iff.mp e))
  have h1 : ∀ y ∈ x :: xs, 1 ≤ y := fun y hy => hs y (by rw [← List.mem_reverse, hx]; exact hy)
  rw [hx]
  have hx1 := h1 x (by simp)
  simp only [List.reverse_cons, List.reverse_nil, List.nil_append, expandRev]
  rw [if_neg (by simp), expandRev_nil_right (fun y hy => h1 y (by simp [hy]))]
  simp only [Outcome.bind_ok, Outcome.pure_eq, Outcome.ok.injEq]
  rw [max_eq_left hx1, ← hx, List.reverse_reverse]

theorem expandShapes_self {s : List Int} : expandShapes s s = .ok s := by
  unfold expandShapes
  rw [expandRev_self]
  simp

theorem bcIdx_one {idx : List Int} (h : idx ≠ []) : bcIdx [1] idx = [0] := by
  unfold bcIdx
  have : (idx.drop (idx.length - 1)).length = 1 := by
    have := List.length_pos_of_ne_nil h
    simp; omega
  obtain ⟨x, hx⟩ := List.length_eq_one_iff.mp this
  simp [hx]

theorem narrow_one {a : Arr} (hs : a.shape = [1]) : Narrow a := by
  intro idx hv
  rw [hs] at hv
  have hl : a.dims.length = 1 := by rw [← Nd.shape_length, hs]; rfl
  match idx, hv with
  | [i], .cons hi .nil =>
    have : i = 0 := by omega
    subst this
    have := Move.addr_origin a.dims 1 hl.symm
    rw [Move.base_sum, ← this]
    simp

theorem looseInto_ok {h : Heap V} {s : List Int} {a b : Arr} {junk : Int → V}
    (hs : ∀ x ∈ s, 0 ≤ x) (hc : binCheck a b = false) (ba : BroadcastsTo a.shape s)
    (bb : BroadcastsTo b.shape s) :
    looseInto h s a b junk = .ok ((alloc h s junk).1, (alloc h s junk).2,
      [operandOf s a, operandOf s b]) := by
  obtain ⟨p1, -⟩ := alloc_props h s junk hs
  unfold looseInto
  simp only [hc, Bool.false_eq_true, if_false]
  rw [p1, bcStrides_ok ba.1, bcStrides_ok bb.1]
  rfl

theorem device_made (f : (Int → V) → List V → V) (h : Heap V) (s : List Int)
    (ins : List (Arr × (List Int → V))) (host : (Int → V) → Outcome (Heap V × Arr × List Operand))
    (A : List Int → V) (d : V)
    (hpos : ∀ x ∈ s, 1 ≤ x) (hrank : s.length ≤ 4) (hsize : s.foldl (· * ·) 1 < 2 ^ 31)
    (hhost : ∀ junk, host junk = .ok ((alloc h s junk).1, (alloc h s junk).2,
      ins.map fun p => operandOf s p.1))
    (hb : ∀ p ∈ ins, BroadcastsTo p.1.shape s) (hA : ∀ p ∈ ins, h.Contains p.1 p.2)
    (hl : ∀ p ∈ ins, p.1.blk < h.next) (hn : ∀ p ∈ ins, Narrow p.1)
    (hval : ∀ junk idx, ValidIdx s idx → f junk (ins.map fun p => p.2 (bcIdx p.1.shape idx)) = A idx) :
    Always (fun o => ∃ junk, Device (host junk) (f junk) o) fun x => Made h x.1 x.2 s A := by
  have h0 : ∀ x ∈ s, 0 ≤ x := fun x hx => by have := hpos x hx; omega
  refine ⟨?_, ?_⟩
  · obtain ⟨⟨o, ho⟩, -⟩ := device_new (f fun _ => d) h s (fun _ => d) ins h0 hrank (by omega) hb hA hl hn
    exact ⟨o, fun _ => d, by rw [hhost]; exact ho⟩
  · rintro o ⟨junk, ho⟩
    rw [hhost] at ho
    obtain ⟨-, -, h3⟩ := device_new (f junk) h s junk ins h0 hrank (by omega) hb hA hl hn
    obtain ⟨h', r, rfl, q1, q2, q3⟩ := h3 o ho
    obtain ⟨e1, e2⟩ := device_out ho
    obtain ⟨p1, -, -, -, p5, p6, -⟩ := alloc_props h s junk h0
    refine ⟨(h', r), rfl, ⟨⟨q1, contains_congr q2 (fun idx hv => ?_), q3, ?_, ?_⟩, ?_, ?_⟩⟩
    · exact hval junk idx (by rw [← q1]; exact hv)
    · simp only; omega
    · subst e1; simp only; omega
    · subst e1; exact alloc_base h s junk
    · subst e1; exact dense_narrow (junk := junk) (by omega)

/-- `a op b` where `b` has one element or the shape of `a`. -/
theorem devBinary_made {op : V → V → V} {h : Heap V} {a b : Arr} {A B : List Int → V}
    (hexp : expandShapes a.shape b.shape = .ok a.shape)
    (hpos : ∀ s ∈ a.shape, 1 ≤ s) (hposb : ∀ s ∈ b.shape, 1 ≤ s)
    (hrank : a.shape.length ≤ 4) (hsize : a.shape.foldl (· * ·) 1 < 2 ^ 31)
    (hA : h.Contains a A) (hB : h.Contains b B) (hla : a.blk < h.next) (hlb : b.blk < h.next)
    (na : Narrow a) (nb : Narrow b) (d : V) :
    Always (devBinary op h a b) fun x =>
      Made h x.1 x.2 a.shape fun idx => op (A idx) (B (bcIdx b.shape idx)) := by
  obtain ⟨ba, bb⟩ := expandShapes_broadcasts hexp hpos hposb
  refine device_made (fun junk => onPair op (junk 0)) h a.shape [(a, A), (b, B)]
    (fun junk => looseHost h a b junk) _ d hpos hrank hsize (fun junk => ?_)
    (by simpa using ⟨ba, bb⟩) (by simpa using ⟨hA, hB⟩) (by simpa using ⟨hla, hlb⟩)
    (by simpa using ⟨na, nb⟩) (fun junk idx hv => ?_)
  · unfold looseHost
    rw [hexp, Outcome.bind_ok]
    exact looseInto_ok (fun x hx => by have := hpos x hx; omega) (binCheck_false hexp) ba bb
  · simp [onPair, bcIdx_self hv]

theorem devCompare_made {op : V → V → V} {h : Heap V} {a b : Arr} {A B : List Int → V}
    (hexp : expandShapes a.shape b.shape = .ok a.shape)
    (hpos : ∀ s ∈ a.shape, 1 ≤ s) (hposb : ∀ s ∈ b.shape, 1 ≤ s)
    (hrank : a.shape.length ≤ 4) (hsize : a.shape.foldl (· * ·) 1 < 2 ^ 31)
    (hA : h.Contains a A) (hB : h.Contains b B) (hla : a.blk < h.next) (hlb : b.blk < h.next)
    (na : Narrow a) (nb : Narrow b) (d : V) :
    Always (devCompare op h a b) fun x =>
      Made h x.1 x.2 a.shape fun idx => op (A idx) (B (bcIdx b.shape idx)) := by
  obtain ⟨ba, bb⟩ := expandShapes_broadcasts hexp hpos hposb
  exact device_made (fun junk => onPair op (junk 0)) h a.shape [(a, A), (b, B)]
    (fun junk => looseInto h a.shape a b junk) _ d hpos hrank hsize
    (fun junk => looseInto_ok (fun x hx => by have := hpos x hx; omega) (binCheck_false hexp) ba bb)
    (by simpa using ⟨ba, bb⟩) (by simpa using ⟨hA, hB⟩) (by simpa using ⟨hla, hlb⟩)
    (by simpa using ⟨na, nb⟩) (fun junk idx hv => by simp [onPair, bcIdx_self hv])

theorem devScalar_made {f : V → V} {h : Heap V} {a : Arr} {A : List Int → V}
    (hpos : ∀ s ∈ a.shape, 1 ≤ s) (hrank : a.shape.length ≤ 4)
    (hsize : a.shape.foldl (· * ·) 1 < 2 ^ 31) (hA : h.Contains a A) (hla : a.blk < h.next)
    (na : Narrow a) (d : V) :
    Always (devScalar f h a) fun x => Made h x.1 x.2 a.shape fun idx => f (A idx) := by
  have h0 : ∀ s ∈ a.shape, 0 ≤ s := fun x hx => by have := hpos x hx; omega
  refine device_made (fun junk vs => f (vs.getD 0 (junk 0))) h a.shape [(a, A)]
    (fun junk => gpuUnaryHost h a junk) _ d hpos hrank hsize (fun junk => ?_)
    (by simpa using broadcastsTo_self _) (by simpa using hA) (by simpa using hla)
    (by simpa using na) (fun junk idx hv => by simp [bcIdx_self hv])
  obtain ⟨p1, -⟩ := alloc_props h a.shape junk h0
  unfold gpuUnaryHost
  simp only
  rw [operandFor_eq (by rw [p1]; exact broadcastsTo_self _)
    (by rw [p1]; exact ⟨_, bcShape_ok (broadcastsTo_self _) (frontSafe_of_length rfl)⟩),
    Outcome.bind_ok, p1]
  rfl

end Calls

end Bliss.Gpu
