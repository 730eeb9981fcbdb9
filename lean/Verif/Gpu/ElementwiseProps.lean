import Verif.Gpu.Elementwise
import Verif.Misc.Types

/-!
# C84: element-wise operations on a CUDA device

`GpuBinary op h a b junk o` says that the operation can end in `o` under some schedule.
-/

namespace Bliss.Gpu

open Bliss.Nd

variable {V : Type}

/-- No schedule of the launch runs for ever. -/
def DeviceTerminates (host : Outcome (Heap V × Arr × List Operand)) (f : List V → V) : Prop :=
  match host with
  | .ok (h, out, ins) => Terminates ProgStep (elementThreads f out ins) (deviceMem h)
  | _ => True

theorem operandFor_eq {a out : Arr} (hb : BroadcastsTo a.shape out.shape)
    (hs : ∃ r, bcShape a.shape out.shape = .ok r) :
    operandFor a out = .ok (operandOf out.shape a) := by
  obtain ⟨r, hr⟩ := hs
  unfold operandFor
  rw [hr, bcStrides_ok hb.1]
  rfl

theorem device_fills {h : Heap V} {out : Arr} {ins : List Operand} {f : List V → V}
    {A : List Int → V} (hf : Fills h (elementThreads f out ins) out A) :
    (∃ o, Device (.ok (h, out, ins)) f o) ∧ DeviceTerminates (.ok (h, out, ins)) f ∧
    ∀ o, Device (.ok (h, out, ins)) f o →
      ∃ h', o = .ok (h', out) ∧ h.Updated h' out A ∧ h'.next = h.next := by
  obtain ⟨f1, f2, ⟨s, f3⟩, f4⟩ := hf
  refine ⟨⟨_, .done f3⟩, f2, fun o ho => ?_⟩
  cases (show Launch h _ out o from ho) with
  | fault hx => exact absurd hx f1
  | done hx => exact ⟨_, rfl, f4 _ hx, rfl⟩

theorem dense_narrow {h : Heap V} {shape : List Int} {junk : Int → V}
    (hsize : shape.foldl (· * ·) 1 ≤ 2 ^ 32) : Narrow (alloc h shape junk).2 := by
  intro idx hv
  simp only [Arr.shape, alloc, denseDims_shape] at hv
  have := dense_bounds hv
  rw [denseDims_numel] at this
  have h0 : (alloc h shape junk).2.base = 0 := by
    have : ∀ sh : List Int, ((denseDims sh).1.map Dim.offset).foldl (· + ·) 0 = 0 := by
      intro sh
      induction sh with
      | nil => rfl
      | cons s ss ih => simpa [denseDims] using ih
    exact this shape
  rw [h0]
  simp only [alloc]
  omega

theorem expandShapes_nonneg {a b shape : List Int} (hexp : expandShapes a b = .ok shape)
    (ha : ∀ s ∈ a, 1 ≤ s) : ∀ s ∈ shape, 0 ≤ s := by
  have hmax := (C46_elementwise_max _ _ _ hexp)
  intro s hs
  obtain ⟨i, hi, rfl⟩ := List.mem_iff_getElem.mp hs
  have := hmax.2 (shape.length - 1 - i)
  have h1 : dimFromEnd shape (shape.length - 1 - i) = shape[i] := by
    unfold dimFromEnd
    rw [List.getD_eq_getElem?_getD, List.getElem?_reverse (by omega)]
    have : shape.length - 1 - (shape.length - 1 - i) = i := by omega
    rw [this, List.getElem?_eq_getElem hi]; rfl
  have h2 : 1 ≤ dimFromEnd a (shape.length - 1 - i) := by
    unfold dimFromEnd
    rw [List.getD_eq_getElem?_getD]
    cases hx : a.reverse[shape.length - 1 - i]? with
    | none => simp
    | some v => simpa using ha v (List.mem_reverse.mp (List.mem_of_getElem? hx))
  omega

/-- A device operation that allocates its result. -/
theorem device_new (f : List V → V) (h : Heap V) (shape : List Int) (junk : Int → V)
    (ins : List (Arr × (List Int → V))) (hpos : ∀ s ∈ shape, 0 ≤ s)
    (hrank : shape.length ≤ 4) (hsize : shape.foldl (· * ·) 1 + 16384 ≤ 2 ^ 32)
    (hb : ∀ p ∈ ins, BroadcastsTo p.1.shape shape) (hA : ∀ p ∈ ins, h.Contains p.1 p.2)
    (hl : ∀ p ∈ ins, p.1.blk < h.next) (hn : ∀ p ∈ ins, Narrow p.1) :
    let host : Outcome (Heap V × Arr × List Operand) :=
      .ok ((alloc h shape junk).1, (alloc h shape junk).2, ins.map fun p => operandOf shape p.1)
    (∃ o, Device host f o) ∧ DeviceTerminates host f ∧
    ∀ o, Device host f o → ∃ h' r, o = .ok (h', r) ∧ r.shape = shape ∧
      h'.Contains r (fun idx => f (ins.map fun p => p.2 (bcIdx p.1.shape idx))) ∧ h.Frame h' := by
  intro host
  obtain ⟨p1, p2, p3, p4, p5, p6, p7⟩ := alloc_props h shape junk hpos
  have hlen : (alloc h shape junk).2.dims.length = shape.length := by
    rw [← shape_length, p1]
  have hf := element_launch f (alloc h shape junk).1 (alloc h shape junk).2 ins p2 p3 p4
    (dense_narrow (by omega)) (by omega) (by unfold Arr.numel; rw [p1]; exact hsize)
    (by rw [p1]; exact hb) (fun p hp => Contains.frame (hA p hp) (hl p hp) p7) hn
    (fun p hp e => by have := hl p hp; omega)
  rw [p1] at hf
  obtain ⟨d1, d2, d3⟩ := device_fills hf
  refine ⟨d1, d2, fun o ho => ?_⟩
  obtain ⟨h', rfl, hu, hnx⟩ := d3 o ho
  obtain ⟨q1, q2, _⟩ := fresh_of_updated (h := h) p7 p5 p6 hu hnx
  exact ⟨h', _, rfl, p1, q1, q2⟩

/-- **C84.** `a + b`, `a - b`, `a * b`, `a / b` on the device, for arrays or slices without empty
dimensions whose shapes combine to `shape`: every schedule ends, without leaving an allocation, with
a new array of that shape whose element `idx` is the operation applied to the broadcast elements;
existing arrays are untouched. Missing from C84: more than four dimensions (`C84_rank_five`), arrays
of 2³¹ elements or more (`C84_huge_untouched`), views that span more (`C84_index_wraps`), and operands
for which the unused broadcast shape is computed out of range (`C84_rank_one_host_ub`). -/
theorem C84_binary_partial (op : V → V → V) (h : Heap V) (a b : Arr) (junk : Int → V)
    (A B : List Int → V) (shape : List Int) (hexp : expandShapes a.shape b.shape = .ok shape)
    (ha : ∀ s ∈ a.shape, 1 ≤ s) (hb : ∀ s ∈ b.shape, 1 ≤ s)
    (hrank : shape.length ≤ 4) (hsize : shape.foldl (· * ·) 1 < 2 ^ 31)
    (sa : ∃ r, bcShape a.shape shape = .ok r) (sb : ∃ r, bcShape b.shape shape = .ok r)
    (hA : h.Contains a A) (hB : h.Contains b B) (hla : a.blk < h.next) (hlb : b.blk < h.next)
    (na : Narrow a) (nb : Narrow b) :
    (∃ o, GpuBinary op h a b junk o) ∧
    DeviceTerminates (gpuBinaryHost h a b junk) (onPair op (junk 0)) ∧
    ∀ o, GpuBinary op h a b junk o → ∃ h' r, o = .ok (h', r) ∧ r.shape = shape ∧
      h'.Contains r (fun idx => op (A (bcIdx a.shape idx)) (B (bcIdx b.shape idx))) ∧
      h.Frame h' := by
  obtain ⟨ba, bb⟩ := expandShapes_broadcasts hexp ha hb
  have hpos := expandShapes_nonneg hexp ha
  obtain ⟨p1, -⟩ := alloc_props h shape junk hpos
  have hhost : gpuBinaryHost h a b junk = .ok ((alloc h shape junk).1, (alloc h shape junk).2,
      [(a, A), (b, B)].map fun p => operandOf shape p.1) := by
    unfold gpuBinaryHost
    rw [hexp, Outcome.bind_ok]
    simp only [binCheck_false hexp, Bool.false_eq_true, if_false]
    rw [operandFor_eq (by rw [p1]; exact ba) (by rw [p1]; exact sa), Outcome.bind_ok,
      operandFor_eq (by rw [p1]; exact bb) (by rw [p1]; exact sb), Outcome.bind_ok, p1]
    rfl
  unfold GpuBinary
  rw [hhost]
  exact device_new (onPair op (junk 0)) h shape junk [(a, A), (b, B)] hpos hrank (by omega)
    (by simpa using ⟨ba, bb⟩) (by simpa using ⟨hA, hB⟩) (by simpa using ⟨hla, hlb⟩)
    (by simpa using ⟨na, nb⟩)

/-- **C84.** Unary operations and operations with a scalar on the device. -/
theorem C84_unary_partial (op : V → V) (h : Heap V) (a : Arr) (junk : Int → V) (A : List Int → V)
    (hwf : a.WF) (hrank : a.dims.length ≤ 4) (hsize : a.numel < 2 ^ 31)
    (hA : h.Contains a A) (hla : a.blk < h.next) (na : Narrow a) :
    (∃ o, GpuUnary op h a junk o) ∧
    DeviceTerminates (gpuUnaryHost h a junk) (fun vs => op (vs.getD 0 (junk 0))) ∧
    ∀ o, GpuUnary op h a junk o → ∃ h' r, o = .ok (h', r) ∧ r.shape = a.shape ∧
      h'.Contains r (fun idx => op (A idx)) ∧ h.Frame h' := by
  have hpos := shape_nonneg hwf
  obtain ⟨p1, -⟩ := alloc_props h a.shape junk hpos
  have hhost : gpuUnaryHost h a junk = .ok ((alloc h a.shape junk).1, (alloc h a.shape junk).2,
      [(a, A)].map fun p => operandOf a.shape p.1) := by
    unfold gpuUnaryHost
    simp only
    rw [operandFor_eq (by rw [p1]; exact broadcastsTo_self _)
      (by rw [p1]; exact ⟨_, bcShape_ok (broadcastsTo_self _) (frontSafe_of_length rfl)⟩),
      Outcome.bind_ok, p1]
    rfl
  unfold GpuUnary
  rw [hhost]
  obtain ⟨d1, d2, d3⟩ := device_new (fun vs => op (vs.getD 0 (junk 0))) h a.shape junk [(a, A)] hpos
    (by rw [shape_length]; exact hrank) (by unfold Arr.numel at hsize; omega)
    (by simpa using broadcastsTo_self _) (by simpa using hA) (by simpa using hla)
    (by simpa using na)
  refine ⟨d1, d2, fun o ho => ?_⟩
  obtain ⟨h', r, e, hr, hc, hfr⟩ := d3 o ho
  refine ⟨h', r, e, hr, fun idx hv => ?_, hfr⟩
  rw [hc idx hv]
  rw [hr] at hv
  simp [bcIdx_self hv]

/-- **C84.** A unary operation into an existing array or slice, with broadcasting (the CPU gets
broadcasting wrong: `C50_broadcast_reads_past_end`). In place is fine when `out` is `a`. -/
theorem C84_into_partial (op : V → V) (d : V) (h : Heap V) (out a : Arr) (A : List Int → V)
    (hwf : out.WF) (hd : out.Distinct) (hm : h.Mapped out) (hA : h.Contains a A)
    (hb : BroadcastsTo a.shape out.shape) (hs : ∃ r, bcShape a.shape out.shape = .ok r)
    (hrank : out.dims.length ≤ 4) (hsize : out.numel < 2 ^ 31)
    (no : Narrow out) (na : Narrow a) (hblk : a.blk ≠ out.blk ∨ a = out) :
    (∃ o, GpuInto op d h out a o) ∧
    DeviceTerminates (gpuIntoHost h out a) (fun vs => op (vs.getD 0 d)) ∧
    ∀ o, GpuInto op d h out a o → ∃ h', o = .ok (h', out) ∧
      h.Updated h' out (fun idx => op (A (bcIdx a.shape idx))) := by
  have hhost : gpuIntoHost h out a = .ok (h, out, [(a, A)].map fun p => operandOf out.shape p.1) := by
    unfold gpuIntoHost
    rw [operandFor_eq hb hs, Outcome.bind_ok]
    rfl
  unfold GpuInto
  rw [hhost]
  have hf := element_launch (fun vs => op (vs.getD 0 d)) h out [(a, A)] hwf hd hm no hrank (by omega)
    (by simpa using hb) (by simpa using hA) (by simpa using na) (by
      intro p hp
      obtain rfl := List.mem_singleton.1 hp
      rcases hblk with h1 | rfl
      · exact fun e => absurd e h1
      · intro _ i j hi hj hne he
        rw [bcIdx_self hj] at he
        exact hne (hd _ _ hi hj he))
  obtain ⟨d1, d2, d3⟩ := device_fills hf
  refine ⟨d1, d2, fun o ho => ?_⟩
  obtain ⟨h', e, hu, _⟩ := d3 o ho
  exact ⟨h', e, hu⟩

/-- **C84.** Assigning a scalar to an array or slice on the device sets exactly its elements, under
every schedule. Missing: more than four dimensions. -/
theorem C84_fill_partial (v : V) (h : Heap V) (out : Arr) (hwf : out.WF) (hd : out.Distinct)
    (hm : h.Mapped out) (hrank : out.dims.length ≤ 4) :
    ¬ Exec ProgStep (fillThreads v out) (deviceMem h) .ub ∧
    Terminates ProgStep (fillThreads v out) (deviceMem h) ∧
    (∃ s, Completes ProgStep (fillThreads v out) (deviceMem h) s) ∧
    ∀ s, Completes ProgStep (fillThreads v out) (deviceMem h) s →
      h.Updated (heapOf h s) out (fun _ => v) := fill_launch v h out hwf hd hm hrank

/-! ## Concrete cases -/

theorem heap2_contains0 (n m : Int) (shape : List Int) (h : shape.foldl (· * ·) 1 = n) :
    (heap2 n m).Contains (dense 0 shape) (fun idx => addr (denseDims shape).1 idx) := by
  intro idx hv
  simp only [Arr.shape, dense, denseDims_shape] at hv
  have := dense_bounds hv
  rw [denseDims_numel, h] at this
  simp [Heap.get, heap2, dense, Buf.ofFn, this.1, this.2]

theorem heap2_contains1 (n m : Int) (shape : List Int) (h : shape.foldl (· * ·) 1 = m) :
    (heap2 n m).Contains (dense 1 shape) (fun idx => 100 + addr (denseDims shape).1 idx) := by
  intro idx hv
  simp only [Arr.shape, dense, denseDims_shape] at hv
  have := dense_bounds hv
  rw [denseDims_numel, h] at this
  simp [Heap.get, heap2, dense, Buf.ofFn, this.1, this.2]

theorem dense_narrow' (b : Nat) {shape : List Int} (hsize : shape.foldl (· * ·) 1 ≤ 2 ^ 32) :
    Narrow (dense b shape) :=
  dense_narrow (h := (⟨fun _ _ => none, b⟩ : Heap Int)) (junk := fun _ => 0) hsize

/-- The sum that the CPU computes out of bounds (`C47_front_alignment_wrong`) is right on the
device, and the hypotheses of `C84_binary_partial` are met: (2,3) plus (2,2,3). -/
theorem C84_front_alignment_right :
    (∃ o, GpuBinary (· + ·) (heap2 6 12) (dense 0 [2, 3]) (dense 1 [2, 2, 3]) (fun _ => 0) o) ∧
    ∀ o, GpuBinary (· + ·) (heap2 6 12) (dense 0 [2, 3]) (dense 1 [2, 2, 3]) (fun _ => 0) o →
      resultAt o [1, 1, 2] = some 116 := by
  obtain ⟨h1, _, h2⟩ := C84_binary_partial (· + ·) (heap2 6 12) (dense 0 [2, 3]) (dense 1 [2, 2, 3])
    (fun _ => 0) _ _ [2, 2, 3] (by decide +kernel) (by decide) (by decide) (by decide) (by decide)
    ⟨_, rfl⟩ ⟨_, rfl⟩ (heap2_contains0 6 12 [2, 3] (by decide))
    (heap2_contains1 6 12 [2, 2, 3] (by decide)) (by decide) (by decide)
    (dense_narrow' 0 (by decide)) (dense_narrow' 1 (by decide))
  refine ⟨h1, fun o ho => ?_⟩
  obtain ⟨h', r, rfl, hr, hc, _⟩ := h2 o ho
  have := hc [1, 1, 2] (by rw [hr]; simp [ValidIdx])
  rw [resultAt, this]
  decide +kernel

/-- `a - b` broadcasts `a` on the device (not on the CPU, `C47_left_operand_not_broadcast`). -/
theorem C84_left_operand_broadcast :
    (∃ o, GpuBinary (· - ·) (heap2 1 3) (dense 0 [1]) (dense 1 [3]) (fun _ => 0) o) ∧
    ∀ o, GpuBinary (· - ·) (heap2 1 3) (dense 0 [1]) (dense 1 [3]) (fun _ => 0) o →
      resultShape o = some [3] ∧ resultAt o [2] = some (-102) := by
  obtain ⟨h1, _, h2⟩ := C84_binary_partial (· - ·) (heap2 1 3) (dense 0 [1]) (dense 1 [3])
    (fun _ => 0) _ _ [3] (by decide +kernel) (by decide) (by decide) (by decide) (by decide)
    ⟨_, rfl⟩ ⟨_, rfl⟩ (heap2_contains0 1 3 [1] (by decide))
    (heap2_contains1 1 3 [3] (by decide)) (by decide) (by decide)
    (dense_narrow' 0 (by decide)) (dense_narrow' 1 (by decide))
  refine ⟨h1, fun o ho => ?_⟩
  obtain ⟨h', r, rfl, hr, hc, _⟩ := h2 o ho
  refine ⟨by simp [resultShape, hr], ?_⟩
  have := hc [2] (by rw [hr]; simp [ValidIdx])
  rw [resultAt, this]
  decide +kernel

/-- A one-element array copied into three elements on the device: three copies. -/
example : (∃ o, GpuInto id 0 (heap2 3 1) (dense 0 [3]) (dense 1 [1]) o) ∧
    ∀ o, GpuInto id 0 (heap2 3 1) (dense 0 [3]) (dense 1 [1]) o → resultAt o [2] = some 100 := by
  have hd : (dense 0 [3]).Distinct := fun i j hi hj he => dense_inj (shape := [3]) hi hj he
  have hm : (heap2 3 1).Mapped (dense 0 [3]) := fun idx hv => by
    rw [heap2_contains0 3 1 [3] (by decide) idx hv]; simp
  obtain ⟨h1, _, h2⟩ := C84_into_partial id 0 (heap2 3 1) (dense 0 [3]) (dense 1 [1]) _
    (by intro d hd; simp [dense, denseDims] at hd; subst hd; decide) hd hm
    (heap2_contains1 3 1 [1] (by decide)) (by exact ⟨by decide, by simp [Arr.shape, dense, denseDims]⟩)
    ⟨_, rfl⟩ (by decide) (by decide) (dense_narrow' 0 (by decide)) (dense_narrow' 1 (by decide))
    (.inl (by decide))
  refine ⟨h1, fun o ho => ?_⟩
  obtain ⟨h', rfl, hc, _⟩ := h2 o ho
  have := hc [2] (by simp [Arr.shape, dense, denseDims, ValidIdx])
  rw [resultAt, this]
  decide +kernel

/-! ## Violations -/

theorem exec_fault_all {A α : Type} [DecidableEq A] {G : Nat} {ps : Fin G → Prog A V α}
    (hps : ps = fun _ => .fault) {s s' : Mem A V} {ls : Fin G → Prog A V α}
    (h : Exec ProgStep ps s (.ok (ls, s'))) : ls = ps := by
  generalize hr : (Outcome.ok (ls, s') : Outcome ((Fin G → Prog A V α) × Mem A V)) = r at h
  cases h with
  | stop => cases hr; rfl
  | step i hk => rw [hps] at hk; cases hk
  | fault => cases hr

/-- **C84 (violation).** On every array with more than four dimensions (and at least one element)
each unary or scalar operation on the device writes past the end of its index array and never
completes. -/
theorem C84_rank_five (op : V → V) (h : Heap V) (a : Arr) (junk : Int → V)
    (hrank : 4 < a.dims.length) (hpos : ∀ s ∈ a.shape, 1 ≤ s) :
    GpuUnary op h a junk .ub ∧ ∀ o, GpuUnary op h a junk o → o = .ub := by
  have hnn : ∀ s ∈ a.shape, 0 ≤ s := fun s hs => by have := hpos s hs; omega
  obtain ⟨p1, -⟩ := alloc_props h a.shape junk hnn
  have hhost : gpuUnaryHost h a junk = .ok ((alloc h a.shape junk).1, (alloc h a.shape junk).2,
      [operandOf a.shape a]) := by
    unfold gpuUnaryHost
    simp only
    rw [operandFor_eq (by rw [p1]; exact broadcastsTo_self _)
      (by rw [p1]; exact ⟨_, bcShape_ok (broadcastsTo_self _) (frontSafe_of_length rfl)⟩),
      Outcome.bind_ok, p1]
    rfl
  have hps : elementThreads (fun vs => op (vs.getD 0 (junk 0))) (alloc h a.shape junk).2
      [operandOf a.shape a] = fun _ => .fault := by
    funext i
    unfold elementThreads elementThread
    rw [if_pos (.inl (by rw [p1, shape_length]; exact hrank))]
  have hG : 0 < launchSize (alloc h a.shape junk).2.numel.toNat :=
    launchSize_pos (numel_pos (by rw [p1]; exact hpos))
  unfold GpuUnary
  rw [hhost]
  refine ⟨.fault (.fault ⟨0, hG⟩ (by rw [hps]; exact .fault)), fun o ho => ?_⟩
  cases (show Launch _ _ _ o from ho) with
  | fault => rfl
  | done hx =>
    obtain ⟨ls, hx, hret⟩ := hx
    have := exec_fault_all hps hx
    have hr := hret ⟨0, hG⟩
    rw [this, hps] at hr
    exact absurd .fault (hr (deviceMem h) _)

/-- Non-vacuity: a (1,1,1,1,2) array. -/
example : GpuUnary id (heap2 2 1) (dense 0 [1, 1, 1, 1, 2]) (fun _ => 0) .ub :=
  (C84_rank_five _ _ _ _ (by decide) (by decide)).1

/-- **C84 (violation).** Adding a one-element array to a (2,3) array reads the shape vector out of
range before the launch. -/
theorem C84_rank_one_host_ub :
    ∀ o, GpuBinary (· + ·) (heap2 1 6) (dense 0 [1]) (dense 1 [2, 3]) (fun _ => 0) o → o = .ub := by
  intro o ho
  have : gpuBinaryHost (heap2 1 6) (dense 0 [1]) (dense 1 [2, 3]) (fun _ => 0) = .ub := rfl
  unfold GpuBinary at ho
  rw [this] at ho
  exact ho

/-- **C84 (violation).** With 2³¹ elements or more `numel()` is not the number of elements (C73). When
it comes out as 0 or negative, the number of blocks is not positive, the runtime rejects the launch,
and the operation returns without having stored anything. -/
theorem C84_huge_untouched (h : Heap V) (out : Arr) (n : Int)
    (_hn : Types.numel out.shape = .ok n) (hneg : n ≤ 0)
    (ps : Fin (launchSize n.toNat) → Prog EAddr V Unit) (o : Outcome (Heap V × Arr))
    (ho : Launch h ps out o) : o = .ok (h, out) := by
  have h0 : launchSize n.toNat = 0 := by
    have : n.toNat = 0 := by omega
    rw [this]; rfl
  have hE : IsEmpty (Fin (launchSize n.toNat)) := by rw [h0]; infer_instance
  cases ho with
  | fault hx =>
    cases hx with
    | step i => exact hE.elim i
    | fault i => exact hE.elim i
  | done hx =>
    obtain ⟨ls, hx, _⟩ := hx
    cases hx with
    | stop => rfl
    | step i => exact hE.elim i

/-- Concrete case: 2³² elements. -/
example (h : Heap V) (ps : Fin (launchSize (0 : Int).toNat) → Prog EAddr V Unit) (o)
    (ho : Launch h ps (dense 0 [65536, 65536]) o) : o = .ok (h, dense 0 [65536, 65536]) :=
  C84_huge_untouched h _ 0 (by decide) (by decide) ps o ho

/-- **C84 (violation).** A view whose elements are 2³² apart: the device reads the element of index
0 where index 1 is meant. -/
theorem C84_index_wraps (blk : Nat) :
    (operandOf [2] ⟨blk, [⟨2, 2 ^ 32, 0⟩]⟩).at [1] = (operandOf [2] ⟨blk, [⟨2, 2 ^ 32, 0⟩]⟩).at [0] ∧
    addr [⟨2, 2 ^ 32, 0⟩] [1] ≠ addr [⟨2, 2 ^ 32, 0⟩] [0] := by
  refine ⟨?_, by decide⟩
  simp only [Operand.at, operandOf, Arr.base, Arr.shape, Arr.strides]
  congr 1

end Bliss.Gpu
