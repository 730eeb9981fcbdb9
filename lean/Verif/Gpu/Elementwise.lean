import Verif.Gpu.Prog
import Verif.Nd.Props

/-!
# Model of the CUDA element-wise kernels

`bland/bland/ops/cuda/elementwise_binary_op_cuda.cuh`, `elementwise_unary_op.cuh` and
`elementwise_scalar_op_cuda.cuh`. The three kernels differ in the number of operands they load;
here the operands are a list (two, one and one entries). `assignment_kernel` of `ops_cuda.cu` is
modelled separately.

Every thread unravels its number into a multi-index once and afterwards advances it by the number
of threads, with carries; the linear indices and the loop counter are 32 bits wide.
-/

namespace Bliss.Gpu

open Bliss.Nd

variable {V : Type}

/-- A device address: block and element. -/
abbrev EAddr := Nat × Int

/-- Device memory holding the arrays of `h`. -/
def deviceMem (h : Heap V) : Mem EAddr V := fun a => h.mem a.1 a.2

/-- The arrays in device memory after a launch. -/
def heapOf (h : Heap V) (s : Mem EAddr V) : Heap V := { h with mem := fun b i => s (b, i) }

/-- Conversion to `uint32_t`. -/
def u32 (x : Int) : Int := x % 2 ^ 32

/-- Unravelling of the worker number (`elementwise_binary_op_cuda.cuh:31-35`,
`elementwise_unary_op.cuh:34-38`, `elementwise_scalar_op_cuda.cuh:39-43`): from the last dimension,
remainder and quotient. Returns the multi-index and what is left of the number. -/
def startIndex : List Int → Nat → List Nat × Nat
  | [], w => ([], w)
  | s :: ss, w =>
    let r := startIndex ss w
    (r.2 % s.toNat :: r.1, r.2 / s.toNat)

/-- Advance of the multi-index (`elementwise_binary_op_cuda.cuh:51-61`,
`elementwise_unary_op.cuh:53-63`, `elementwise_scalar_op_cuda.cuh:53-63`): from the last dimension,
add the increment; stop if the index is in range, otherwise carry the quotient. The second
component is the carry out of the dimensions visited so far, 0 after the `break`. -/
def advance : List Int → List Nat → Nat → List Nat × Nat
  | s :: ss, i :: is, inc =>
    let r := advance ss is inc
    if r.2 = 0 then (i :: r.1, 0)
    else if i + r.2 < s.toNat then ((i + r.2) :: r.1, 0)
    else ((i + r.2) % s.toNat :: r.1, (i + r.2) / s.toNat)
  | _, _, inc => ([], inc)

/-- An operand as the kernel sees it: its block, the pointer moved by the offsets
(`elementwise_binary_op_cuda.cuh:91-99`) and the broadcast strides. -/
structure Operand where
  blk : Nat
  base : Int
  strides : List Int

/-- The address of an operand for a multi-index (`elementwise_binary_op_cuda.cuh:38-44`): a sum
kept in a `uint32_t`. -/
def Operand.at (p : Operand) (idx : List Nat) : EAddr :=
  (p.blk, p.base + u32 (sdot p.strides (idx.map fun (i : Nat) => (i : Int))))

/-- Load several elements in order. -/
def loads {A : Type} : List A → Prog A V (List V)
  | [] => .ret []
  | a :: as => .load a fun v => (loads as).bind fun vs => .ret (v :: vs)

/-- `out_data[out_index] = Op::call(a_data[a_index], b_data[b_index])`
(`elementwise_binary_op_cuda.cuh:44`). -/
def elementBody (f : List V → V) (out : Operand) (ins : List Operand) (idx : List Nat) :
    Prog EAddr V Unit :=
  (loads (ins.map (·.at idx))).bind fun vs => .store (out.at idx) (f vs) (.ret ())

/-- The loop `for (uint32_t n = worker_id; n < numel; n += grid_size)`
(`elementwise_binary_op_cuda.cuh:37-62`). `fuel` bounds the number of rounds; running out of it is
reported as a fault, and the theorems show that `numel` rounds suffice. -/
def elementLoop (shape : List Int) (body : List Nat → Prog EAddr V Unit) (G numel : Nat) :
    Nat → Nat → List Nat → Prog EAddr V Unit
  | 0, n, _ => if n < numel then .fault else .ret ()
  | fuel + 1, n, idx =>
    if n < numel then
      (body idx).bind fun _ =>
        elementLoop shape body G numel fuel ((n + G) % 2 ^ 32) (advance shape idx G).1
    else .ret ()

/-- One thread of the kernel: `nd_index` has room for four dimensions
(`elementwise_binary_op_cuda.cuh:17,29`), and a dimension without elements would divide by zero. -/
def elementThread (f : List V → V) (shape : List Int) (numel : Nat) (out : Operand)
    (ins : List Operand) (G tid : Nat) : Prog EAddr V Unit :=
  if 4 < shape.length ∨ shape.any (· ≤ 0) then .fault
  else elementLoop shape (elementBody f out ins) G numel numel tid (startIndex shape tid).1

/-- Number of threads (`elementwise_binary_op_cuda.cuh:118-121`): up to 32 blocks of 512; an empty
array gives no block, which the runtime rejects without running anything. -/
def launchSize (numel : Nat) : Nat := min 32 ((numel + 511) / 512) * 512

/-- The operand for array `a` (`elementwise_binary_op_cuda.cuh:88-107`). The helper that computes a
broadcast shape runs first; its result goes unused, but it may read out of range. -/
def operandFor (a out : Arr) : Outcome Operand := do
  let _ ← bcShape a.shape out.shape
  let st ← bcStrides a.shape a.strides out.shape
  pure ⟨a.blk, a.base, st⟩

/-- The output operand: its own strides. -/
def operandOut (out : Arr) : Operand := ⟨out.blk, out.base, out.strides⟩

/-- The threads of a launch that writes `f` of the operands `as` into `out`. -/
def elementThreads (f : List V → V) (out : Arr) (ins : List Operand) :
    Fin (launchSize out.numel.toNat) → Prog EAddr V Unit :=
  fun i => elementThread f out.shape out.numel.toNat (operandOut out) ins
    (launchSize out.numel.toNat) i

/-- The ways a launch can end: with a fault, or with all threads done and some memory. -/
inductive Launch {G : Nat} (h : Heap V) (ps : Fin G → Prog EAddr V Unit) (out : Arr) :
    Outcome (Heap V × Arr) → Prop
  | fault (hx : Exec ProgStep ps (deviceMem h) .ub) : Launch h ps out .ub
  | done {s : Mem EAddr V} (hx : Completes ProgStep ps (deviceMem h) s) :
      Launch h ps out (.ok (heapOf h s, out))

/-- What a host function that ends in a launch can do. -/
def Device (host : Outcome (Heap V × Arr × List Operand)) (f : List V → V)
    (o : Outcome (Heap V × Arr)) : Prop :=
  match host with
  | .ok (h, out, ins) => Launch h (elementThreads f out ins) out o
  | .throws e => o = .throws e
  | .ub => o = .ub

/-- Binary operations on two values. -/
def onPair (op : V → V → V) (d : V) (vs : List V) : V := op (vs.getD 0 d) (vs.getD 1 d)

/-- `add_cuda`, `subtract_cuda`, `multiply_cuda`, `divide_cuda` on arrays up to the launch
(`arithmetic_cuda.cu:21-66`, `elementwise_binary_op_cuda.cuh:70-107`). -/
def gpuBinaryHost (h : Heap V) (a b : Arr) (junk : Int → V) :
    Outcome (Heap V × Arr × List Operand) := do
  let shape ← expandShapes a.shape b.shape
  let (h1, out) := alloc h shape junk
  if binCheck a b then .throws .runtimeError
  else do
    let pa ← operandFor a out
    let pb ← operandFor b out
    pure (h1, out, [pa, pb])

/-- A binary operation on the device ends in `o`. -/
def GpuBinary (op : V → V → V) (h : Heap V) (a b : Arr) (junk : Int → V)
    (o : Outcome (Heap V × Arr)) : Prop :=
  Device (gpuBinaryHost h a b junk) (onPair op (junk 0)) o

/-- An operation with a scalar up to the launch (`arithmetic_scalar_cuda.cu:21-90`,
`elementwise_scalar_op_cuda.cuh:71-91`), and the unary operations that return a new array
(`ops_cuda.cu`, `elementwise_unary_op.cuh:72-94`). -/
def gpuUnaryHost (h : Heap V) (a : Arr) (junk : Int → V) :
    Outcome (Heap V × Arr × List Operand) := do
  let (h1, out) := alloc h a.shape junk
  let pa ← operandFor a out
  pure (h1, out, [pa])

/-- A unary or scalar operation on the device ends in `o`. -/
def GpuUnary (op : V → V) (h : Heap V) (a : Arr) (junk : Int → V)
    (o : Outcome (Heap V × Arr)) : Prop :=
  Device (gpuUnaryHost h a junk) (fun vs => op (vs.getD 0 (junk 0))) o

/-- A unary operation into a given array (`copy_cuda`, `square_cuda`, ... with an `out` argument:
`elementwise_unary_op.cuh:72-94`). -/
def gpuIntoHost (h : Heap V) (out a : Arr) : Outcome (Heap V × Arr × List Operand) := do
  let pa ← operandFor a out
  pure (h, out, [pa])

/-- A unary operation into `out` on the device ends in `o`. -/
def GpuInto (op : V → V) (d : V) (h : Heap V) (out a : Arr) (o : Outcome (Heap V × Arr)) : Prop :=
  Device (gpuIntoHost h out a) (fun vs => op (vs.getD 0 d)) o

/-! ## The multi-index of a thread -/

theorem advance_start (shape : List Int) (n G : Nat) (h : ∀ s ∈ shape, 0 < s) :
    startIndex shape (n + G) = ((advance shape (startIndex shape n).1 G).1,
      (startIndex shape n).2 + (advance shape (startIndex shape n).1 G).2) := by
  induction shape with
  | nil => rfl
  | cons s ss ih =>
    have hs : 0 < s.toNat := by have := h s (by simp); omega
    simp only [startIndex, advance, ih (fun x hx => h x (by simp [hx]))]
    generalize (advance ss (startIndex ss n).1 G).1 = is'
    generalize (advance ss (startIndex ss n).1 G).2 = c
    generalize (startIndex ss n).2 = q
    generalize s.toNat = m at hs
    have hq := Nat.mod_add_div q m
    have hr := Nat.mod_lt q hs
    have hdiv : (q + c) / m = q / m + (q % m + c) / m := by
      rw [show q + c = (q % m + c) + m * (q / m) by omega, Nat.add_mul_div_left _ _ hs]
      omega
    have hmod : (q + c) % m = (q % m + c) % m := by
      rw [show q + c = (q % m + c) + m * (q / m) by omega, Nat.add_mul_mod_self_left]
    by_cases hc : c = 0
    · simp [hc]
    by_cases hlt : q % m + c < m
    · simp only [hc, hlt, if_false, if_true]
      rw [hdiv, hmod, Nat.mod_eq_of_lt hlt, Nat.div_eq_of_lt hlt]
    · simp only [hc, hlt, if_false]
      rw [hdiv, hmod]

/-- The multi-index of element `n`. -/
def indexOf (shape : List Int) (n : Nat) : List Int :=
  (startIndex shape n).1.map fun (i : Nat) => (i : Int)

/-- Loop dimensions that carry only the sizes. -/
def sizeDims (shape : List Int) : List (LoopDim Int) := shape.map fun s => ⟨s, 0, 0⟩

theorem sizeDims_size (shape : List Int) : (sizeDims shape).map LoopDim.size = shape := by
  simp [sizeDims, Function.comp_def]

theorem startIndex_unravel (shape : List Int) (n : Nat) (h : ∀ s ∈ shape, 0 < s) :
    indexOf shape n = unravel (sizeDims shape) (n % cells (sizeDims shape)) ∧
      (startIndex shape n).2 = n / cells (sizeDims shape) := by
  induction shape with
  | nil => simp [indexOf, startIndex, sizeDims, unravel, cells]
  | cons s ss ih =>
    obtain ⟨h1, h2⟩ := ih (fun x hx => h x (by simp [hx]))
    have e : sizeDims (s :: ss) = ⟨s, 0, 0⟩ :: sizeDims ss := rfl
    unfold indexOf at h1 ⊢
    rw [e]
    simp only [startIndex, List.map_cons, unravel, cells, h1, h2]
    generalize cells (sizeDims ss) = C
    refine ⟨?_, by rw [Nat.div_div_eq_div_mul, Nat.mul_comm]⟩
    rw [Nat.mul_comm s.toNat C, Nat.mod_mul_right_div_self, Nat.mod_mul_right_mod]

theorem indexOf_unravel {shape : List Int} {n : Nat} (h : ∀ s ∈ shape, 0 < s)
    (hn : n < cells (sizeDims shape)) : indexOf shape n = unravel (sizeDims shape) n := by
  rw [(startIndex_unravel shape n h).1, Nat.mod_eq_of_lt hn]

theorem cells_numel {a : Arr} (h : ∀ s ∈ a.shape, 0 < s) :
    cells (sizeDims a.shape) = a.numel.toNat := by
  have := cells_eq (sizeDims a.shape) (by
    intro d hd
    obtain ⟨s, hs, rfl⟩ := List.mem_map.1 hd
    exact (h s hs).le)
  rw [sizeDims_size] at this
  unfold Arr.numel
  omega

/-! ## The loop of a thread visits its elements -/

/-- The elements a thread visits, as a recursion. -/
def strideFrom (G numel : Nat) : Nat → Nat → List Nat
  | 0, _ => []
  | k + 1, n => if n < numel then n :: strideFrom G numel k (n + G) else []

theorem strideFrom_ge {G numel k n : Nat} (h : numel ≤ n) : strideFrom G numel k n = [] := by
  cases k <;> simp [strideFrom, Nat.not_lt.2 h]

theorem strideFrom_eq (G numel k n : Nat) :
    strideFrom G numel k n = (List.range k).filterMap fun j =>
      if n + j * G < numel then some (n + j * G) else none := by
  induction k generalizing n with
  | zero => rfl
  | succ k ih =>
    rw [List.range_succ_eq_map, List.filterMap_cons, List.filterMap_map]
    have e : (List.range k).filterMap ((fun j => if n + j * G < numel then some (n + j * G) else none)
        ∘ Nat.succ) = strideFrom G numel k (n + G) := by
      rw [ih]
      congr 1
      funext j
      simp only [Function.comp_apply, Nat.succ_eq_add_one, Nat.add_mul, Nat.one_mul]
      rw [show n + (j * G + G) = n + G + j * G by omega]
    rw [e]
    by_cases hn : n < numel
    · simp [strideFrom, hn]
    · simp [strideFrom, hn, strideFrom_ge (show numel ≤ n + G by omega)]

theorem gridStride_eq (G numel tid : Nat) :
    gridStride G numel tid = strideFrom G numel numel tid := (strideFrom_eq ..).symm

theorem elementLoop_eq {shape : List Int} {body : List Nat → Prog EAddr V Unit} {G numel : Nat}
    (hpos : ∀ s ∈ shape, 0 < s) (hG : 0 < G) (hsmall : numel + G ≤ 2 ^ 32)
    (fuel n : Nat) (hfuel : numel ≤ n + fuel) :
    elementLoop shape body G numel fuel n (startIndex shape n).1 =
      Prog.each (strideFrom G numel fuel n) fun m => body (startIndex shape m).1 := by
  induction fuel generalizing n with
  | zero =>
    have : ¬ n < numel := by omega
    simp [elementLoop, strideFrom, this, Prog.each]
  | succ k ih =>
    by_cases hn : n < numel
    · simp only [elementLoop, strideFrom, hn, if_true, Prog.each]
      have e : (n + G) % 2 ^ 32 = n + G := Nat.mod_eq_of_lt (by omega)
      rw [e]
      have ha : (advance shape (startIndex shape n).1 G).1 = (startIndex shape (n + G)).1 := by
        rw [advance_start shape n G hpos]
      rw [ha, ih (n + G) (by omega)]
    · simp [elementLoop, strideFrom, hn, Prog.each]

/-! ## One element -/

section
variable {A : Type} [DecidableEq A]

theorem loads_run (as : List A) (s : Mem A V) (vs : List V)
    (h : List.Forall₂ (fun a v => s a = some v) as vs) :
    (loads as : Prog A V (List V)).run s = .ok (vs, s) := by
  induction h with
  | nil => rfl
  | cons h _ ih =>
    simp only [loads, Prog.run, h]
    rw [Prog.run_bind, ih]
    rfl

theorem loads_within {X W : A → Prop} (as : List A) (h : ∀ a ∈ as, X a) :
    Prog.Within X W (loads as : Prog A V (List V)) := by
  induction as with
  | nil => exact .ret _
  | cons a as ih =>
    exact Prog.Within.load (h a (by simp)) fun v =>
      Prog.Within.bind (ih fun b hb => h b (by simp [hb])) fun _ => .ret _

theorem loads_bounded (as : List A) : Prog.Bounded as.length (loads as : Prog A V (List V)) := by
  induction as with
  | nil => exact .ret _ _
  | cons a as ih =>
    exact Prog.Bounded.load fun v => Prog.Bounded.bind (m := 0) ih fun _ => .ret _ _

end

/-- The operand of an array that broadcasts to `out`. -/
def operandOf (out : List Int) (a : Arr) : Operand :=
  ⟨a.blk, a.base, List.replicate (out.length - a.shape.length) 0 ++
    List.zipWith (fun s st => if s ≠ 1 then st else 0) a.shape a.strides⟩

/-- Every element of `a` lies less than `2 ^ 32` elements after the element with index 0. -/
def Narrow (a : Arr) : Prop :=
  ∀ idx, ValidIdx a.shape idx → 0 ≤ addr a.dims idx - a.base ∧ addr a.dims idx - a.base < 2 ^ 32

theorem operandOf_at {out : List Int} {a : Arr} {idx : List Nat} (hb : BroadcastsTo a.shape out)
    (hn : Narrow a) (hv : ValidIdx out (idx.map fun (i : Nat) => (i : Int))) :
    (operandOf out a).at idx =
      (a.blk, addr a.dims (bcIdx a.shape (idx.map fun (i : Nat) => (i : Int)))) := by
  have h1 := bcAddr hb hv
  have h2 := hn _ (bcIdx_valid hb hv)
  unfold Operand.at operandOf u32
  simp only
  rw [← h1] at h2 ⊢
  rw [Int.emod_eq_of_lt (by omega) (by omega)]

theorem operandOut_at {out : Arr} {idx : List Nat} (hn : Narrow out)
    (hv : ValidIdx out.shape (idx.map fun (i : Nat) => (i : Int))) :
    (operandOut out).at idx = (out.blk, addr out.dims (idx.map fun (i : Nat) => (i : Int))) := by
  have h2 := hn _ hv
  have h1 := addr_eq out.dims (idx.map fun (i : Nat) => (i : Int))
    (by have := hv.length_eq; rw [shape_length] at this; omega)
  unfold Operand.at operandOut u32
  simp only
  rw [h1] at h2 ⊢
  change 0 ≤ out.base + sdot out.strides _ - out.base ∧ out.base + sdot out.strides _ - out.base < _
    at h2
  rw [Int.emod_eq_of_lt (by omega) (by omega)]
  rfl

theorem launchSize_pos {n : Nat} (h : 0 < n) : 0 < launchSize n := by unfold launchSize; omega

theorem launchSize_le (n : Nat) : launchSize n ≤ 16384 := by unfold launchSize; omega

/-- A launch without threads does nothing. -/
theorem exec_none {A α : Type} [DecidableEq A] {G : Nat} (hG : G = 0) {ps : Fin G → Prog A V α}
    {s : Mem A V} {o : Outcome ((Fin G → Prog A V α) × Mem A V)} (h : Exec ProgStep ps s o) :
    o = .ok (ps, s) := by
  subst hG
  cases h with
  | stop => rfl
  | step i => exact i.elim0
  | fault i => exact i.elim0

/-- Arrays with an empty dimension have no elements. -/
theorem numel_of_zero {a : Arr} (hz : (0 : Int) ∈ a.shape) : a.numel = 0 := by
  unfold Arr.numel
  generalize a.shape = l at hz
  induction l with
  | nil => simp at hz
  | cons x l ih =>
    rw [List.foldl_cons, foldl_mul_shift]
    rcases List.mem_cons.1 hz with e | e
    · simp [← e]
    · rw [ih e]; simp

theorem no_index_of_zero {shape : List Int} (hz : (0 : Int) ∈ shape) (idx : List Int) :
    ¬ ValidIdx shape idx := by
  intro hv
  obtain ⟨i, hi, e⟩ := List.mem_iff_getElem.1 hz
  have hl := hv.length_eq
  have := (List.forall₂_iff_get.1 hv).2 i hi (hl ▸ hi)
  simp only [List.get_eq_getElem, e] at this
  omega

theorem numel_pos {a : Arr} (hpos : ∀ s ∈ a.shape, 0 < s) : 0 < a.numel.toNat := by
  rw [← cells_numel hpos]
  generalize a.shape = l at hpos
  induction l with
  | nil => exact Nat.one_pos
  | cons x l ih =>
    have := hpos x (by simp)
    exact Nat.mul_pos (by simp; omega) (ih fun s hs => hpos s (by simp [hs]))

theorem pos_or_zero {a : Arr} (hwf : a.WF) : (∀ s ∈ a.shape, 0 < s) ∨ (0 : Int) ∈ a.shape := by
  by_cases hz : (0 : Int) ∈ a.shape
  · exact .inr hz
  · exact .inl fun s hs => lt_of_le_of_ne (shape_nonneg hwf s hs) fun e => hz (e ▸ hs)

/-- What is claimed of a launch: no fault, no endless run, at least one way to finish, and however
it finishes the array `out` holds `A` and nothing else has changed. -/
def Fills {G : Nat} (h : Heap V) (ps : Fin G → Prog EAddr V Unit) (out : Arr) (A : List Int → V) :
    Prop :=
  ¬ Exec ProgStep ps (deviceMem h) .ub ∧ Terminates ProgStep ps (deviceMem h) ∧
  (∃ s, Completes ProgStep ps (deviceMem h) s) ∧
  ∀ s, Completes ProgStep ps (deviceMem h) s → h.Updated (heapOf h s) out A

theorem fills_empty {G : Nat} (h : Heap V) (ps : Fin G → Prog EAddr V Unit) (out : Arr)
    (A : List Int → V) (hG : G = 0) (hz : (0 : Int) ∈ out.shape) : Fills h ps out A := by
  refine ⟨fun hx => (by cases exec_none hG hx), ?_, ⟨_, _, .stop _ _, fun i => ?_⟩, ?_⟩
  · rintro ⟨g, g0, gs⟩
    obtain ⟨i, _⟩ := gs 0
    exact (Fin.cast hG i).elim0
  · exact (Fin.cast hG i).elim0
  · rintro s ⟨_, hx, _⟩
    have := exec_none hG hx
    obtain ⟨_, rfl⟩ := Prod.mk.inj (Outcome.ok.inj this)
    exact ⟨fun idx hv => absurd hv (no_index_of_zero hz idx), fun b i _ => rfl⟩

/-- A launch in which element `n` of `out` is computed from element `n` of each operand. -/
theorem pointwise_launch (f : List V → V) (h : Heap V) (out : Arr)
    (ins : List (Arr × (List Int → V))) {G : Nat} (hG : 0 < G)
    (hpos : ∀ s ∈ out.shape, 0 < s) (hd : out.Distinct) (hm : h.Mapped out)
    (hb : ∀ p ∈ ins, BroadcastsTo p.1.shape out.shape) (hA : ∀ p ∈ ins, h.Contains p.1 p.2)
    (hc : ∀ p ∈ ins, NoClobberBc out p.1) (atOut : Nat → EAddr) (atIn : Arr → Nat → EAddr)
    (hWat : ∀ n < out.numel.toNat, atOut n = (out.blk, addr out.dims (indexOf out.shape n)))
    (hXat : ∀ n < out.numel.toNat, ∀ p ∈ ins, atIn p.1 n =
      (p.1.blk, addr p.1.dims (bcIdx p.1.shape (indexOf out.shape n)))) :
    Fills h (fun i : Fin G => Prog.each (gridStride G out.numel.toNat i) fun n =>
      (loads (ins.map fun p => atIn p.1 n)).bind fun vs => .store (atOut n) (f vs) (.ret ())) out
      (fun idx => f (ins.map fun p => p.2 (bcIdx p.1.shape idx))) := by
  have hcells := cells_numel hpos
  let N := out.numel.toNat
  let body : Nat → Prog EAddr V Unit := fun n =>
    (loads (ins.map fun p => atIn p.1 n)).bind fun vs => .store (atOut n) (f vs) (.ret ())
  have hvalid : ∀ n < N, ValidIdx out.shape (indexOf out.shape n) := by
    intro n hn'
    rw [indexOf_unravel hpos (by rw [hcells]; exact hn')]
    exact valid_unravel (sizeDims_size _) (by rw [hcells]; exact hn')
  have hinj : ∀ n < N, ∀ m < N, indexOf out.shape n = indexOf out.shape m → n = m := by
    intro n hn' m hm' e
    rw [indexOf_unravel hpos (by rw [hcells]; exact hn'),
      indexOf_unravel hpos (by rw [hcells]; exact hm')] at e
    exact unravel_inj (by rw [hcells]; exact hn') (by rw [hcells]; exact hm') e
  let W : Nat → EAddr → Prop := fun n a => a = atOut n
  let X : Nat → EAddr → Prop := fun n a => W n a ∨ ∃ p ∈ ins, a = atIn p.1 n
  have hvals : ∀ n < N, List.Forall₂ (fun a v => deviceMem h a = some v)
      (ins.map fun p => atIn p.1 n)
      (ins.map fun p => p.2 (bcIdx p.1.shape (indexOf out.shape n))) := by
    intro n hn'
    rw [List.forall₂_map_left_iff, List.forall₂_map_right_iff, List.forall₂_same]
    intro p hp
    simp only [hXat n hn' p hp, deviceMem]
    exact hA p hp _ (bcIdx_valid (hb p hp) (hvalid n hn'))
  have hbody : ∀ n < N, ∃ t, (body n).run (deviceMem h) = .ok ((), t) ∧
      t (out.blk, addr out.dims (indexOf out.shape n)) =
        some (f (ins.map fun p => p.2 (bcIdx p.1.shape (indexOf out.shape n)))) := by
    intro n hn'
    have hmn := hm _ (hvalid n hn')
    simp only [body]
    rw [Prog.run_bind, loads_run _ _ _ (hvals n hn')]
    simp only [Outcome.bind_ok, Prog.run, hWat n hn']
    obtain ⟨v, hv⟩ := Option.ne_none_iff_exists'.1 hmn
    simp only [Heap.get] at hv
    simp only [deviceMem, hv]
    refine ⟨_, rfl, ?_⟩
    simp
  have key := gridStride_exec (body := body) (X := X) (W := W) (numel := N) hG
    (fun n a h => .inl h) (by
      intro n hn' m hm' a hne hw hx
      simp only [W] at hw
      rw [hWat n hn'] at hw
      rcases hx with hx | ⟨p, hp, hx⟩
      · simp only [W] at hx
        rw [hWat m hm', hw] at hx
        have := hd _ _ (hvalid n hn') (hvalid m hm') (Prod.mk.inj hx).2
        exact hne (hinj n hn' m hm' this)
      · rw [hXat m hm' p hp, hw] at hx
        obtain ⟨e1, e2⟩ := Prod.mk.inj hx
        exact hc p hp e1.symm _ _ (hvalid n hn') (hvalid m hm')
          (fun e => hne (hinj n hn' m hm' e)) e2)
    (by
      intro n
      refine Prog.Within.bind (loads_within _ ?_) fun vs => Prog.Within.store rfl (.ret _)
      intro a ha
      simp only [List.mem_map] at ha
      obtain ⟨p, hp, rfl⟩ := ha
      exact .inr ⟨p, hp, rfl⟩)
    (fun n => ⟨_, Prog.Bounded.bind (loads_bounded _) fun vs => Prog.Bounded.store (.ret 0 _)⟩)
    (deviceMem h) (fun n hn' => by
      obtain ⟨t, ht, _⟩ := hbody n hn'
      exact ⟨t, ht⟩)
  obtain ⟨k1, k2, k3, k4⟩ := key
  refine ⟨k1, k2, k3, fun s hs => ?_⟩
  obtain ⟨r1, r2⟩ := k4 s hs
  refine ⟨fun idx hv => ?_, fun b i hne => ?_⟩
  · have hbox : InBox (sizeDims out.shape) idx := (inBox_iff _ _).2 (by rwa [sizeDims_size])
    have hlt := ravel_lt hbox
    have hidx : indexOf out.shape (ravel (sizeDims out.shape) idx) = idx := by
      rw [indexOf_unravel hpos hlt, unravel_ravel hbox]
    rw [hcells] at hlt
    obtain ⟨t, ht, hag⟩ := r1 _ hlt
    obtain ⟨t', ht', hval⟩ := hbody _ hlt
    rw [ht] at ht'
    obtain ⟨_, rfl⟩ := Prod.mk.inj (Outcome.ok.inj ht')
    rw [hidx] at hval
    have := hag (out.blk, addr out.dims idx) (.inl (by
      simp only [W]
      rw [hWat _ hlt, hidx]))
    simp only [Heap.get, heapOf]
    rw [this, hval]
  · refine r2 (b, i) fun n hn' hw => ?_
    simp only [W] at hw
    rw [hWat n hn'] at hw
    obtain ⟨e1, e2⟩ := Prod.mk.inj hw
    exact hne e1 _ (hvalid n hn') e2.symm

/-- The element-wise launch, for any array `out` and operands that broadcast to it. -/
theorem element_launch (f : List V → V) (h : Heap V) (out : Arr)
    (ins : List (Arr × (List Int → V)))
    (hwf : out.WF) (hd : out.Distinct) (hm : h.Mapped out) (hno : Narrow out)
    (hrank : out.dims.length ≤ 4) (hsmall : out.numel + 16384 ≤ 2 ^ 32)
    (hb : ∀ p ∈ ins, BroadcastsTo p.1.shape out.shape) (hA : ∀ p ∈ ins, h.Contains p.1 p.2)
    (hn : ∀ p ∈ ins, Narrow p.1) (hc : ∀ p ∈ ins, NoClobberBc out p.1) :
    Fills h (elementThreads f out (ins.map fun p => operandOf out.shape p.1)) out
      (fun idx => f (ins.map fun p => p.2 (bcIdx p.1.shape idx))) := by
  rcases pos_or_zero hwf with hpos | hz
  swap
  · exact fills_empty _ _ _ _ (by rw [numel_of_zero hz]; rfl) hz
  have hG := launchSize_pos (numel_pos hpos)
  have hGle := launchSize_le out.numel.toNat
  have hps : elementThreads f out (ins.map fun p => operandOf out.shape p.1) =
      fun i : Fin (launchSize out.numel.toNat) =>
        Prog.each (gridStride (launchSize out.numel.toNat) out.numel.toNat i) fun n =>
          (loads (ins.map fun p => (operandOf out.shape p.1).at (startIndex out.shape n).1)).bind
            fun vs => .store ((operandOut out).at (startIndex out.shape n).1) (f vs) (.ret ()) := by
    funext i
    have h1 : ¬ (4 < out.shape.length ∨ out.shape.any (· ≤ 0) = true) := by
      rw [shape_length]
      rintro (h | h)
      · omega
      · obtain ⟨s, hs, hle⟩ := List.any_eq_true.1 h
        have := hpos s hs
        simp at hle
        omega
    simp only [elementThreads, elementThread, h1, if_false]
    rw [elementLoop_eq hpos hG (by omega) _ _ (by omega), ← gridStride_eq]
    simp only [elementBody, List.map_map, Function.comp_def]
  have hvalid : ∀ n < out.numel.toNat, ValidIdx out.shape (indexOf out.shape n) := by
    intro n hn'
    rw [← cells_numel hpos] at hn'
    rw [indexOf_unravel hpos hn']
    exact valid_unravel (sizeDims_size _) hn'
  rw [hps]
  exact pointwise_launch f h out ins hG hpos hd hm hb hA hc
    (fun n => (operandOut out).at (startIndex out.shape n).1)
    (fun a n => (operandOf out.shape a).at (startIndex out.shape n).1)
    (fun n hn' => operandOut_at hno (hvalid n hn'))
    (fun n hn' p hp => operandOf_at (hb p hp) (hn p hp) (hvalid n hn'))

/-! ## Fill -/

/-- One thread of `assignment_kernel` (`ops_cuda.cu:41-67`): the index of every element is
unravelled afresh, in 64 bits; `nd_index` has room for four dimensions. The copies of shape and
strides in shared memory, written before a barrier, are the values themselves. -/
def fillThread (v : V) (out : Arr) (G tid : Nat) : Prog EAddr V Unit :=
  if 4 < out.shape.length ∨ out.shape.any (· ≤ 0) then .fault
  else Prog.each (gridStride G out.numel.toNat tid) fun n =>
    .store (out.blk, out.base + sdot out.strides (indexOf out.shape n)) v (.ret ())

/-- Number of threads of the fill (`ops_cuda.cu:82-85`): up to 256 blocks of 256. -/
def fillSize (numel : Nat) : Nat := min 256 ((numel + 255) / 256) * 256

/-- The threads of a fill (`ops_cuda.cu:70-90`). -/
def fillThreads (v : V) (out : Arr) : Fin (fillSize out.numel.toNat) → Prog EAddr V Unit :=
  fun i => fillThread v out (fillSize out.numel.toNat) i

theorem fill_launch (v : V) (h : Heap V) (out : Arr) (hwf : out.WF) (hd : out.Distinct)
    (hm : h.Mapped out) (hrank : out.dims.length ≤ 4) :
    Fills h (fillThreads v out) out (fun _ => v) := by
  rcases pos_or_zero hwf with hpos | hz
  swap
  · exact fills_empty _ _ _ _ (by rw [numel_of_zero hz]; rfl) hz
  have hnp := numel_pos hpos
  have hG : 0 < fillSize out.numel.toNat := by unfold fillSize; omega
  have h1 : ¬ (4 < out.shape.length ∨ out.shape.any (· ≤ 0) = true) := by
    rw [shape_length]
    rintro (h | h)
    · omega
    · obtain ⟨s, hs, hle⟩ := List.any_eq_true.1 h
      have := hpos s hs
      simp at hle
      omega
  have hps : fillThreads v out = fun i : Fin (fillSize out.numel.toNat) =>
      Prog.each (gridStride (fillSize out.numel.toNat) out.numel.toNat i) fun n =>
        (loads (([] : List (Arr × (List Int → V))).map fun p => ((0 : Nat), (0 : Int)))).bind
          fun vs => .store (out.blk, out.base + sdot out.strides (indexOf out.shape n))
            ((fun _ => v) vs) (.ret ()) := by
    funext i
    simp only [fillThreads, fillThread, h1, if_false]
    rfl
  rw [hps]
  refine pointwise_launch (fun _ => v) h out [] hG hpos hd hm (by simp) (by simp) (by simp)
    (fun n => (out.blk, out.base + sdot out.strides (indexOf out.shape n))) (fun _ _ => (0, 0))
    (fun n hn => ?_) (by simp)
  have hv : ValidIdx out.shape (indexOf out.shape n) := by
    rw [← cells_numel hpos] at hn
    rw [indexOf_unravel hpos hn]
    exact valid_unravel (sizeDims_size _) hn
  rw [addr_eq out.dims _ (by have := hv.length_eq; rw [shape_length] at this; omega)]
  rfl

end Bliss.Gpu
