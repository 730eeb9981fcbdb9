import Verif.Misc.Device
import Verif.Nd.Props

/-!
# Handing arrays to other frameworks, reading single elements, moving arrays between devices
(C102, C103, C104)

Models `to_dlpack` and the constructor from a `DLManagedTensor`
(bland/bland/bland_tensor_internals.cpp lines 25-47, 196-230), `nb_to_bland` (bland/python/pybland.hpp
lines 304-326), `scalarize` (bland/bland/ndarray.cpp lines 215-258) and `bland::to`
(bland/bland/ops/ops.cpp lines 60-157).
-/

namespace Bliss.Move

open Nd Device

variable {V : Type}

/-! ## Exchange with other frameworks -/

/-- A `DLTensor` (dlpack.h) as it crosses the border: the memory, the byte offset in whole elements,
shape, and strides; a framework may leave out the strides of a compact array. -/
structure DLTensor where
  blk : Nat
  byteOffset : Int
  shape : List Int
  strides : Option (List Int)
  deriving DecidableEq, Repr

/-- `to_dlpack` (`bland_tensor_internals.cpp:196-230`): pointer, shape and strides are copied, the
offsets of the dimensions are not (the deep copy announced in line 210 is not made). `bo` is the
byte offset the array carries along. -/
def toDlpack (bo : Int) (a : Arr) : DLTensor :=
  { blk := a.blk, byteOffset := bo, shape := a.shape, strides := some a.strides }

/-- The constructor from a `DLManagedTensor` (`:25-47`): offsets 0, the byte offset is not looked at;
it reads as many strides as there are dimensions. -/
def fromDlpack (t : DLTensor) : Outcome Arr :=
  match t.strides with
  | none => if t.shape = [] then .ok { blk := t.blk, dims := [] } else .ub
  | some st => .ok { blk := t.blk, dims := List.zipWith (fun s d => ⟨s, d, 0⟩) t.shape st }

/-- Specification (dlpack.h): where element `idx` of a tensor is. -/
def DLTensor.addr (t : DLTensor) (idx : List Int) : Int :=
  t.byteOffset + (List.zipWith (· * ·) idx
    (t.strides.getD ((denseDims t.shape).1.map Dim.stride))).sum

/-- The element another framework sees at `idx`. -/
def Heap.seen (h : Heap V) (t : DLTensor) (idx : List Int) : Option V := h.mem t.blk (t.addr idx)

theorem addr_split (dims : List Dim) (idx : List Int) (hl : idx.length = dims.length) :
    Nd.addr dims idx = (dims.map Dim.offset).sum + (List.zipWith (· * ·) idx (dims.map Dim.stride)).sum := by
  induction dims generalizing idx with
  | nil => cases idx <;> simp [Nd.addr]
  | cons d ds ih =>
    cases idx with
    | nil => simp at hl
    | cons i is => simp only [Nd.addr, List.map_cons, List.sum_cons, List.zipWith_cons_cons, ih is (by simpa using hl)]; ring

theorem base_sum (a : Arr) : a.base = (a.dims.map Dim.offset).sum := by
  unfold Arr.base; rw [List.sum_eq_foldl]

theorem valid_length {shape idx : List Int} (h : ValidIdx shape idx) : idx.length = shape.length :=
  (List.Forall₂.length_eq h).symm

/-- C102: the element another framework sees is that of the array moved by its offsets, for every
array and every index. -/
theorem C102_export_exact (a : Arr) (idx : List Int) (hi : ValidIdx a.shape idx) :
    (toDlpack 0 a).addr idx = Nd.addr a.dims idx - a.base := by
  rw [addr_split a.dims idx (by rw [valid_length hi]; simp [Arr.shape]), base_sum]
  simp [toDlpack, DLTensor.addr, Arr.strides]

/-- C102, proved part: another framework sees every element of an array without offsets where the
library has it. -/
theorem C102_export_partial (h : Heap V) (a : Arr) (h0 : ∀ d ∈ a.dims, d.offset = 0) (idx : List Int)
    (hi : ValidIdx a.shape idx) : Heap.seen h (toDlpack 0 a) idx = h.get a idx := by
  have hb : a.base = 0 := by
    rw [base_sum]; refine List.sum_eq_zero (fun x hx => ?_)
    obtain ⟨d, hd, rfl⟩ := List.mem_map.1 hx; exact h0 d hd
  unfold Heap.seen Heap.get
  rw [C102_export_exact a idx hi, hb, sub_zero]; rfl

/-- C102 fails for slices: whatever part of an array is cut out, another framework sees the elements
at its beginning. -/
theorem C102_slice_shown_from_start (h : Heap V) (a r : Arr) (h0 : ∀ d ∈ a.dims, d.offset = 0)
    (dim start stop : Int) (hstart : 0 ≤ start) (hs : slice a dim start stop 1 = .ok r) (idx : List Int)
    (hi : ValidIdx r.shape idx) : Heap.seen h (toDlpack 0 r) idx = h.get a idx := by
  obtain ⟨hv, _⟩ := slice_view hstart (by omega) hs
  have hst : r.strides = a.strides ∧ r.blk = a.blk := by
    refine ⟨?_, hv.blk⟩
    unfold slice at hs
    split at hs
    · cases hs
    · cases hd : a.dims[dim.toNat]? with
      | none => rw [hd] at hs; cases hs
      | some d =>
        rw [hd] at hs
        simp only at hs
        generalize (if start < 0 then d.size + start - 1 else start) = start' at hs
        generalize (if stop < 0 then d.size + stop - 1 else if stop > d.size then d.size else stop) = stop' at hs
        split at hs
        · cases hs
        · split at hs
          · cases hs
          · split at hs
            · cases hs
            · cases hs
              unfold Arr.strides
              refine List.ext_getElem (by simp) (fun i h1 h2 => ?_)
              rw [List.getElem_map, List.getElem_map, List.getElem_set]
              split
              · rename_i hh
                subst hh
                simp at h2
                rw [List.getElem?_eq_getElem h2] at hd
                cases hd; simp
              · rfl
  have hlen : idx.length = a.dims.length := by
    have := valid_length (hv.valid idx hi)
    rw [sliceIdx, List.length_modify] at this
    rw [this]; simp [Arr.shape]
  unfold Heap.seen Heap.get
  rw [addr_split a.dims idx hlen]
  have : (a.dims.map Dim.offset).sum = 0 := by
    refine List.sum_eq_zero (fun x hx => ?_)
    obtain ⟨d, hd, rfl⟩ := List.mem_map.1 hx; exact h0 d hd
  rw [this]
  have h1 : r.dims.map Dim.stride = a.dims.map Dim.stride := hst.1
  simp only [toDlpack, DLTensor.addr, hst.2, Option.getD_some, Arr.strides, h1]

/-- C102, proved part: an array taken over from another framework has the shape and the elements that
framework sees, if the strides are given and the byte offset is 0 (as from numpy,
`pybland.hpp:304-326`). -/
theorem C102_import_partial (h : Heap V) (t : DLTensor) (st : List Int) (hst : t.strides = some st)
    (hl : st.length = t.shape.length) (h0 : t.byteOffset = 0) :
    ∃ a, fromDlpack t = .ok a ∧ a.shape = t.shape ∧ a.strides = st ∧
      ∀ idx, ValidIdx t.shape idx → h.get a idx = Heap.seen h t idx := by
  have hshape : (List.zipWith (fun s d => (⟨s, d, 0⟩ : Dim)) t.shape st).map Dim.size = t.shape := by
    rw [List.map_zipWith]
    exact List.ext_getElem (by simp [hl]) (fun i h1 h2 => by simp)
  have hstr : (List.zipWith (fun s d => (⟨s, d, 0⟩ : Dim)) t.shape st).map Dim.stride = st := by
    rw [List.map_zipWith]
    exact List.ext_getElem (by simp [hl]) (fun i h1 h2 => by simp)
  refine ⟨{ blk := t.blk, dims := List.zipWith (fun s d => ⟨s, d, 0⟩) t.shape st }, by
    simp [fromDlpack, hst], hshape, hstr, fun idx hi => ?_⟩
  unfold Heap.get Heap.seen DLTensor.addr
  rw [addr_split _ idx (by rw [valid_length hi]; simp [hl]), hstr, hst, h0]
  have : ((List.zipWith (fun s d => (⟨s, d, 0⟩ : Dim)) t.shape st).map Dim.offset).sum = 0 := by
    refine List.sum_eq_zero (fun x hx => ?_)
    rw [List.map_zipWith] at hx
    obtain ⟨i, hi, rfl⟩ := List.mem_iff_getElem.1 hx
    simp
  rw [this]; simp

/-- C102 fails: a byte offset is not looked at, so the array starts that many elements too early. -/
theorem C102_byte_offset_ignored (h : Heap V) (t : DLTensor) (a : Arr) (ha : fromDlpack t = .ok a)
    (st : List Int) (hst : t.strides = some st) (hl : st.length = t.shape.length) (idx : List Int)
    (hi : ValidIdx t.shape idx) : Nd.addr a.dims idx = t.addr idx - t.byteOffset := by
  obtain ⟨a', h1, _, _, _⟩ := C102_import_partial h { t with byteOffset := 0 } st hst hl rfl
  have hE : fromDlpack { t with byteOffset := 0 } = fromDlpack t := rfl
  rw [hE, ha] at h1; cases h1
  have hseen := (C102_import_partial (V := Int) ⟨fun _ i => some i, 0⟩ { t with byteOffset := 0 } st hst hl rfl)
  obtain ⟨b, h2, _, _, h3⟩ := hseen
  rw [hE, ha] at h2; cases h2
  have := h3 idx hi
  simp only [Heap.get, Heap.seen, Option.some.injEq] at this
  rw [this]; simp [DLTensor.addr]

/-- C102 fails: a compact array without strides, which the protocol allows, makes the constructor read
through a null pointer. -/
theorem C102_no_strides_undefined (t : DLTensor) (h : t.strides = none) (hs : t.shape ≠ []) :
    fromDlpack t = .ub := by
  simp [fromDlpack, h, hs]

/-- C102 fails: the constructor leaves the byte offset of the new array uninitialised, and handing
that array out again shows every element displaced by whatever was there. -/
theorem C102_reexport_displaced (t : DLTensor) (a : Arr) (ha : fromDlpack t = .ok a) (st : List Int)
    (hst : t.strides = some st) (hl : st.length = t.shape.length) (junk : Int) (idx : List Int)
    (hi : ValidIdx t.shape idx) : (toDlpack junk a).addr idx = t.addr idx - t.byteOffset + junk := by
  have h1 := C102_byte_offset_ignored (V := Int) ⟨fun _ i => some i, 0⟩ t a ha st hst hl idx hi
  obtain ⟨a', h2, h3, h4, _⟩ := C102_import_partial (V := Int) ⟨fun _ i => some i, 0⟩
    { t with byteOffset := 0 } st hst hl rfl
  have hE : fromDlpack { t with byteOffset := 0 } = fromDlpack t := rfl
  rw [hE, ha] at h2; cases h2
  rw [← h1, addr_split a.dims idx (by
    rw [valid_length hi, ← show a.shape = t.shape from h3]; simp [Arr.shape])]
  have : (a.dims.map Dim.offset).sum = 0 := by
    rw [fromDlpack, hst] at ha; cases ha
    refine List.sum_eq_zero (fun x hx => ?_)
    rw [List.map_zipWith] at hx
    obtain ⟨i, hi, rfl⟩ := List.mem_iff_getElem.1 hx
    simp
  rw [this]
  simp only [toDlpack, DLTensor.addr, Option.getD_some, Arr.strides]; ring

/-- A 2×3 array holding 0, 1, …, 5. -/
def exHeap : Heap Int := ⟨fun _ => Buf.ofFn 6 id, 1⟩

/-- The array itself. -/
def exArr : Arr := { blk := 0, dims := [⟨2, 3, 0⟩, ⟨3, 1, 0⟩] }

/-- Its last column. -/
def exCol : Arr := { blk := 0, dims := [⟨2, 3, 0⟩, ⟨1, 1, 2⟩] }

example : slice exArr 1 2 3 1 = .ok exCol := by decide +kernel

/-- The last column is 2, 5; another framework is shown 0, 3. -/
example : [[0, 0], [1, 0]].map (exHeap.get exCol) = [some 2, some 5] ∧
    [[0, 0], [1, 0]].map (Heap.seen exHeap (toDlpack 0 exCol)) = [some 0, some 3] := by decide +kernel

/-- A numpy view with strides of its own is taken over as it is. -/
example : fromDlpack ⟨0, 0, [3, 2], some [1, 3]⟩ = .ok { blk := 0, dims := [⟨3, 1, 0⟩, ⟨2, 3, 0⟩] } := rfl

/-! ## Moving arrays between devices -/

/-- How the library was built, and the cuda devices it found usable (`config.cpp:17-75`). -/
structure Build where
  cuda : Bool
  usable : Int → Bool

/-- `memcpy`/`cudaMemcpy` of `n` elements: from element `start` of `src` to the start of `dst`. A range
outside the allocation is undefined here (CUDA reports an error that nobody looks at). -/
def memcpy (h : Heap V) (src : Nat) (start : Int) (dst : Nat) (n : Nat) : Outcome (Heap V) :=
  forLoop n (fun (k : Nat) h => do
    let v ← h.load src (start + (k : Int))
    h.store dst (k : Int) v) h

/-- `ndarray(shape, dtype, device)` (`bland_tensor_internals.cpp:79-140`). Failing allocations are not
modelled. -/
def allocOn (B : Build) (d : Dev) (h : Heap V) (shape : List Int) (junk : Int → V) :
    Outcome (Heap V × Arr) :=
  if d.kind = .cpu ∨ B.cuda = true then .ok (alloc h shape junk) else .throws .runtimeError

/-- `bland::to(src, dest_dev)` (`ops.cpp:60-157`): `s` is the device of `a`, `d` the destination. The
element count is that of `numel` (exact here). -/
def moveTo (B : Build) (h : Heap V) (a : Arr) (s d : Dev) (junk : Int → V) : Outcome (Heap V × Arr) :=
  if s = d then .ok (h, a)
  else do
    let (h1, r) ← allocOn B d h a.shape junk
    if B.cuda = false ∧ (s.kind ≠ .cpu ∨ d.kind ≠ .cpu) then .throws .runtimeError
    else
      let n := a.numel.toNat
      match s.kind with
      | .cpu =>
        match d.kind with
        | .cuda | .cudaManaged =>
          if B.usable d.id = false then .throws .runtimeError
          else do let h2 ← memcpy h1 a.blk 0 r.blk n; pure (h2, r)
        | .cudaHost | .cpu => do let h2 ← memcpy h1 a.blk 0 r.blk n; pure (h2, r)
      | .cuda | .cudaManaged =>
        match d.kind with
        | .cpu | .cudaHost => do let h2 ← memcpy h1 a.blk a.base r.blk n; pure (h2, r)
        | .cudaManaged =>
          if d.id ≠ s.id then
            if B.usable d.id = false then .throws .runtimeError
            else do let h2 ← memcpy h1 a.blk 0 r.blk n; pure (h2, r)
          else .throws .runtimeError
        -- a destination of type cuda has no branch: nothing is copied
        | .cuda => .ok (h1, r)
      | .cudaHost => .throws .runtimeError

/-- Specification: `r` is a new array of the shape of `a` whose elements are `A`, and everything that
existed before is as it was. -/
def NewArray (h h' : Heap V) (a r : Arr) (A : List Int → V) : Prop :=
  r.shape = a.shape ∧ r.blk = h.next ∧ r.base = 0 ∧ h'.Contains r A ∧ h.Frame h' ∧ h'.next = h.next + 1

theorem memcpy_wrote {h : Heap V} {src dst : Nat} (hne : src ≠ dst) {start : Int} {n : Nat} {A : Nat → V}
    (hA : ∀ k < n, h.mem src (start + (k : Int)) = some (A k))
    (hO : ∀ k < n, h.mem dst ((k : Nat) : Int) ≠ none) :
    ∃ h', memcpy h src start dst n = .ok h' ∧ Wrote h h' dst n (fun k => (k : Int)) A := by
  unfold memcpy
  obtain ⟨h', h1, h2⟩ := forLoop_inv (n := n) (s := h)
    (body := fun (k : Nat) h => do
      let v ← Heap.load h src (start + (k : Int))
      Heap.store h dst (k : Int) v)
    (fun n h' => Wrote h h' dst n (fun k => (k : Int)) A) (Wrote.refl _ _ _ _)
    (by
      intro k h' hk w
      have hl := w.load (hA k hk) (fun e => absurd e hne)
      obtain ⟨h2, hst, w2⟩ := w.store (hO k hk) (fun j hj => by
        intro e; have : j = k := by exact_mod_cast e
        omega)
      exact ⟨h2, by simp only [hl, Outcome.bind_ok]; exact hst, w2⟩)
  exact ⟨h', h1, h2⟩

/-- Copying the elements from `start` on, one after the other, into a new array. -/
theorem copied {h : Heap V} {a : Arr} (ha : a.WF) (hb : a.blk < h.next) {start : Int} {M : Int → V}
    (hM : ∀ k, 0 ≤ k → k < a.numel → h.mem a.blk (start + k) = some (M k)) (junk : Int → V) :
    ∃ h', memcpy (alloc h a.shape junk).1 a.blk start (alloc h a.shape junk).2.blk a.numel.toNat = .ok h' ∧
      NewArray h h' a (alloc h a.shape junk).2 (fun idx => M (Nd.addr (denseDims a.shape).1 idx)) := by
  obtain ⟨h1, h2, h3, h4, h5, h6, h7⟩ := alloc_props h a.shape junk (shape_nonneg ha)
  have hn : (denseDims a.shape).2 = a.numel := denseDims_numel a.shape
  have hmem : ∀ i, (alloc h a.shape junk).1.mem h.next i = Buf.ofFn (denseDims a.shape).2 junk i := by
    intro i; simp [alloc]
  obtain ⟨h', e1, e2⟩ := memcpy_wrote (h := (alloc h a.shape junk).1) (src := a.blk)
    (dst := (alloc h a.shape junk).2.blk) (by rw [h5]; omega) (start := start) (n := a.numel.toNat)
    (A := fun k => M k)
    (by
      intro k hk
      rw [h7 _ hb]; exact hM k (by omega) (by omega))
    (by
      intro k hk
      rw [h5, hmem, hn]; simp only [Buf.ofFn]; rw [if_pos (by omega)]; simp)
  refine ⟨h', e1, h1, h5, ?_, ?_, ?_, ?_⟩
  · rw [base_sum]
    refine List.sum_eq_zero (fun x hx => ?_)
    obtain ⟨d, hd, rfl⟩ := List.mem_map.1 hx
    have : ∀ (s : List Int), ∀ d ∈ (denseDims s).1, d.offset = 0 := by
      intro s
      induction s with
      | nil => simp [denseDims]
      | cons x xs ih => simp only [denseDims, List.mem_cons]; rintro d (rfl | hd); exacts [rfl, ih d hd]
    exact this a.shape d hd
  · intro idx hi
    rw [h1] at hi
    obtain ⟨hb0, hb1⟩ := dense_bounds hi
    have := e2.done (Nd.addr (denseDims a.shape).1 idx).toNat (by rw [hn] at hb1; omega)
    rw [Int.toNat_of_nonneg hb0] at this
    exact this
  · intro b hb'
    rw [← h7 b hb']
    funext i
    exact e2.same b i (fun e => by rw [h5] at e; omega)
  · rw [e2.next, h6]

/-- C104: moving an array to a usable cuda device makes a new array there from the first elements of
the memory of the old one, whatever its offsets and strides. -/
theorem C104_to_device_exact (B : Build) (hB : B.cuda = true) (h : Heap V) (a : Arr) (ha : a.WF)
    (hb : a.blk < h.next) (s d : Dev) (hs : s.kind = .cpu) (hd : d.kind = .cuda ∨ d.kind = .cudaManaged)
    (hu : B.usable d.id = true) (M : Int → V)
    (hM : ∀ k, 0 ≤ k → k < a.numel → h.mem a.blk k = some (M k)) (junk : Int → V) :
    ∃ h' r, moveTo B h a s d junk = .ok (h', r) ∧
      NewArray h h' a r (fun idx => M (Nd.addr (denseDims a.shape).1 idx)) := by
  obtain ⟨h', h1, h2⟩ := copied ha hb (start := 0) (M := M) (fun k h0 hk => by rw [zero_add]; exact hM k h0 hk) junk
  refine ⟨h', _, ?_, h2⟩
  have hne : s ≠ d := by rintro rfl; rw [hs] at hd; simp at hd
  unfold moveTo
  rw [if_neg hne]
  simp only [allocOn, hB, or_true, if_true, Outcome.bind_ok]
  rcases hd with hd | hd <;> simp [hs, hd, hu, h1]

/-- C104, proved part: moving an array that is stored row by row from the start of its memory to a usable
cuda device preserves all elements. -/
theorem C104_to_device_partial (B : Build) (hB : B.cuda = true) (h : Heap V) (a : Arr) (ha : a.WF)
    (hb : a.blk < h.next) (s d : Dev) (hs : s.kind = .cpu) (hd : d.kind = .cuda ∨ d.kind = .cudaManaged)
    (hu : B.usable d.id = true) (A : List Int → V) (hA : h.Contains a A)
    (hrow : ∀ idx, ValidIdx a.shape idx → Nd.addr a.dims idx = Nd.addr (denseDims a.shape).1 idx)
    (junk : Int → V) :
    ∃ h' r, moveTo B h a s d junk = .ok (h', r) ∧ NewArray h h' a r A := by
  have hn : (denseDims a.shape).2 = a.numel := denseDims_numel a.shape
  have hM : ∀ k, ∃ v, 0 ≤ k → k < a.numel → h.mem a.blk k = some v ∧
      ∀ idx, ValidIdx a.shape idx → Nd.addr (denseDims a.shape).1 idx = k → v = A idx := by
    intro k
    by_cases hk : 0 ≤ k ∧ k < a.numel
    · obtain ⟨idx, hi, he⟩ := dense_surj (shape_nonneg ha) k hk.1 (by rw [hn]; exact hk.2)
      refine ⟨A idx, fun _ _ => ⟨?_, fun idx' hi' he' => ?_⟩⟩
      · have := hA idx hi; rw [Heap.get, hrow idx hi, he] at this; exact this
      · rw [dense_inj hi hi' (he.trans he'.symm)]
    · exact ⟨junk 0, fun h0 h1 => absurd ⟨h0, h1⟩ hk⟩
  choose M hM using hM
  obtain ⟨h', r, h1, h2, h3, h4, h5, h6⟩ := C104_to_device_exact B hB h a ha hb s d hs hd hu M
    (fun k h0 hk => (hM k h0 hk).1) junk
  refine ⟨h', r, h1, h2, h3, h4, fun idx hi => ?_, h6⟩
  rw [h5 idx hi]
  rw [h2] at hi
  obtain ⟨hb0, hb1⟩ := dense_bounds hi
  exact congrArg some ((hM _ hb0 (by rw [hn] at hb1; exact hb1)).2 idx hi rfl)

/-- C104: moving an array from a cuda device to the host takes the elements that follow its first
one in memory, whatever its strides. -/
theorem C104_to_host_exact (B : Build) (hB : B.cuda = true) (h : Heap V) (a : Arr) (ha : a.WF)
    (hb : a.blk < h.next) (s d : Dev) (hs : s.kind = .cuda ∨ s.kind = .cudaManaged)
    (hd : d.kind = .cpu ∨ d.kind = .cudaHost) (M : Int → V)
    (hM : ∀ k, 0 ≤ k → k < a.numel → h.mem a.blk (a.base + k) = some (M k)) (junk : Int → V) :
    ∃ h' r, moveTo B h a s d junk = .ok (h', r) ∧
      NewArray h h' a r (fun idx => M (Nd.addr (denseDims a.shape).1 idx)) := by
  obtain ⟨h', h1, h2⟩ := copied ha hb (start := a.base) (M := M) hM junk
  refine ⟨h', _, ?_, h2⟩
  have hne : s ≠ d := by
    rintro rfl
    rcases hs with hs | hs <;> rw [hs] at hd <;> simp at hd
  unfold moveTo
  rw [if_neg hne]
  simp only [allocOn, hB, or_true, if_true, Outcome.bind_ok]
  rcases hs with hs | hs <;> rcases hd with hd | hd <;> simp [hs, hd, h1]

/-- C104, proved part: moving an array whose elements follow each other row by row from a cuda device to
the host preserves all elements. -/
theorem C104_to_host_partial (B : Build) (hB : B.cuda = true) (h : Heap V) (a : Arr) (ha : a.WF)
    (hb : a.blk < h.next) (s d : Dev) (hs : s.kind = .cuda ∨ s.kind = .cudaManaged)
    (hd : d.kind = .cpu ∨ d.kind = .cudaHost) (A : List Int → V) (hA : h.Contains a A)
    (hrow : ∀ idx, ValidIdx a.shape idx →
      Nd.addr a.dims idx = a.base + Nd.addr (denseDims a.shape).1 idx)
    (junk : Int → V) :
    ∃ h' r, moveTo B h a s d junk = .ok (h', r) ∧ NewArray h h' a r A := by
  have hn : (denseDims a.shape).2 = a.numel := denseDims_numel a.shape
  have hM : ∀ k, ∃ v, 0 ≤ k → k < a.numel → h.mem a.blk (a.base + k) = some v ∧
      ∀ idx, ValidIdx a.shape idx → Nd.addr (denseDims a.shape).1 idx = k → v = A idx := by
    intro k
    by_cases hk : 0 ≤ k ∧ k < a.numel
    · obtain ⟨idx, hi, he⟩ := dense_surj (shape_nonneg ha) k hk.1 (by rw [hn]; exact hk.2)
      refine ⟨A idx, fun _ _ => ⟨?_, fun idx' hi' he' => ?_⟩⟩
      · have := hA idx hi; rw [Heap.get, hrow idx hi, he] at this; exact this
      · rw [dense_inj hi hi' (he.trans he'.symm)]
    · exact ⟨junk 0, fun h0 h1 => absurd ⟨h0, h1⟩ hk⟩
  choose M hM using hM
  obtain ⟨h', r, h1, h2, h3, h4, h5, h6⟩ := C104_to_host_exact B hB h a ha hb s d hs hd M
    (fun k h0 hk => (hM k h0 hk).1) junk
  refine ⟨h', r, h1, h2, h3, h4, fun idx hi => ?_, h6⟩
  rw [h5 idx hi]
  rw [h2] at hi
  obtain ⟨hb0, hb1⟩ := dense_bounds hi
  exact congrArg some ((hM _ hb0 (by rw [hn] at hb1; exact hb1)).2 idx hi rfl)

/-- C104: asking for the device an array is on returns the array itself. -/
theorem C104_same_device (B : Build) (h : Heap V) (a : Arr) (d : Dev) (junk : Int → V) :
    moveTo B h a d d junk = .ok (h, a) := if_pos rfl

/-- C104: between two numbers of the host device, in any build, a move makes a new array from the
first elements of the memory of the old one, whatever its offsets and strides. -/
theorem C104_host_to_host_exact (B : Build) (h : Heap V) (a : Arr) (ha : a.WF)
    (hb : a.blk < h.next) (s d : Dev) (hs : s.kind = .cpu) (hd : d.kind = .cpu) (hne : s ≠ d)
    (M : Int → V) (hM : ∀ k, 0 ≤ k → k < a.numel → h.mem a.blk k = some (M k)) (junk : Int → V) :
    ∃ h' r, moveTo B h a s d junk = .ok (h', r) ∧
      NewArray h h' a r (fun idx => M (Nd.addr (denseDims a.shape).1 idx)) := by
  obtain ⟨h', h1, h2⟩ := copied ha hb (start := 0) (M := M) (fun k h0 hk => by rw [zero_add]; exact hM k h0 hk) junk
  refine ⟨h', _, ?_, h2⟩
  unfold moveTo
  rw [if_neg hne]
  simp only [allocOn, hs, hd, true_or, if_true, Outcome.bind_ok]
  rw [if_neg (by simp), h1]
  rfl

/-- C104: a build without CUDA refuses to move an array from or to any other kind of device. -/
theorem C104_no_cuda_refused (B : Build) (hB : B.cuda = false) (h : Heap V) (a : Arr) (s d : Dev)
    (hne : s ≠ d) (hk : s.kind ≠ .cpu ∨ d.kind ≠ .cpu) (junk : Int → V) :
    moveTo B h a s d junk = .throws .runtimeError := by
  unfold moveTo
  rw [if_neg hne]
  by_cases hd : d.kind = .cpu
  · rw [hd] at hk
    simp only [allocOn, hd, true_or, if_true, Outcome.bind_ok]
    rw [if_pos ⟨hB, by simpa using hk⟩]
  · simp [allocOn, hB, hd]

/-- C104 fails: moving an array from one cuda device to another copies nothing; the result is what the
new memory happened to hold, and no error is reported. -/
theorem C104_device_to_device_lost (B : Build) (hB : B.cuda = true) (h : Heap V) (a : Arr) (ha : a.WF)
    (s d : Dev) (hs : s.kind = .cuda ∨ s.kind = .cudaManaged) (hd : d.kind = .cuda) (hne : s ≠ d)
    (junk : Int → V) :
    ∃ h' r, moveTo B h a s d junk = .ok (h', r) ∧ r.shape = a.shape ∧
      h'.Contains r (fun idx => junk (Nd.addr (denseDims a.shape).1 idx)) := by
  obtain ⟨h1, _⟩ := alloc_props h a.shape junk (shape_nonneg ha)
  refine ⟨(alloc h a.shape junk).1, (alloc h a.shape junk).2, ?_, h1, fun idx hi => ?_⟩
  · unfold moveTo
    rw [if_neg hne]
    simp only [allocOn, hB, or_true, if_true, Outcome.bind_ok]
    rcases hs with hs | hs <;> simp [hs, hd]
  · rw [h1] at hi
    obtain ⟨hb0, hb1⟩ := dense_bounds hi
    simp only [Heap.get, alloc, if_true, Buf.ofFn]
    rw [if_pos ⟨hb0, hb1⟩]

/-- C104: without cuda support, and for a device that is not usable, an error is reported. -/
theorem C104_refused (B : Build) (h : Heap V) (a : Arr) (s d : Dev) (hs : s.kind = .cpu)
    (hd : d.kind = .cuda ∨ d.kind = .cudaManaged) (hB : B.cuda = false ∨ B.usable d.id = false)
    (junk : Int → V) : moveTo B h a s d junk = .throws .runtimeError := by
  have hne : s ≠ d := by rintro rfl; rw [hs] at hd; simp at hd
  unfold moveTo
  rw [if_neg hne]
  rcases hB with hB | hB
  · rcases hd with hd | hd <;> simp [allocOn, hB, hd]
  · by_cases hc : B.cuda = true
    · rcases hd with hd | hd <;> simp [allocOn, hc, hB, hs, hd]
    · have hc : B.cuda = false := by simpa using hc
      rcases hd with hd | hd <;> simp [allocOn, hc, hd]

/-- C104 fails: arrays in pinned host memory cannot be moved anywhere. -/
theorem C104_host_memory_stuck (B : Build) (h : Heap V) (a : Arr) (s d : Dev) (hs : s.kind = .cudaHost)
    (hne : s ≠ d) (junk : Int → V) : moveTo B h a s d junk = .throws .runtimeError := by
  unfold moveTo
  rw [if_neg hne]
  by_cases hc : B.cuda = true
  · simp [allocOn, hc, hs]
  · have hc : B.cuda = false := by simpa using hc
    by_cases hd : d.kind = .cpu
    · simp [allocOn, hc, hd, hs]
    · simp [allocOn, hc, hd]

/-- A build with cuda and one usable device. -/
def exBuild : Build := ⟨true, fun i => i = 0⟩

/-- The elements of an array of two rows, read back after a move. -/
def exMoved (r : Outcome (Heap Int × Arr)) (idx : List (List Int)) : List (Option Int) :=
  match r with
  | .ok (h, r) => idx.map (h.get r)
  | _ => []

/-- The whole array arrives; of the last column (2, 5) the device gets 0, 1, and of a column that is
on the device the host gets 2, 3. -/
example :
    exMoved (moveTo exBuild exHeap exArr ⟨.cpu, 0⟩ ⟨.cuda, 0⟩ (fun _ => 99)) [[0, 0], [0, 2], [1, 2]] =
      [some 0, some 2, some 5] ∧
    exMoved (moveTo exBuild exHeap exCol ⟨.cpu, 0⟩ ⟨.cuda, 0⟩ (fun _ => 99)) [[0, 0], [1, 0]] =
      [some 0, some 1] ∧
    exMoved (moveTo exBuild exHeap exCol ⟨.cuda, 0⟩ ⟨.cpu, 0⟩ (fun _ => 99)) [[0, 0], [1, 0]] =
      [some 2, some 3] ∧
    exMoved (moveTo exBuild exHeap exArr ⟨.cuda, 1⟩ ⟨.cuda, 0⟩ (fun _ => 99)) [[0, 0], [1, 2]] =
      [some 99, some 99] := by decide +kernel

/-- The hypotheses of `C104_to_device_partial` and `C104_to_host_partial` hold of the whole array. -/
example : exArr.WF ∧ (∀ idx, Nd.addr exArr.dims idx = Nd.addr (denseDims exArr.shape).1 idx) ∧
    exArr.base = 0 := ⟨by unfold exArr Arr.WF; simp, fun _ => rfl, rfl⟩

/-! ## Single elements -/

/-- `scalarize()` (`ndarray.cpp:215-224`): the array is moved to the CPU and the first element of the
memory is read. -/
def scalarize (B : Build) (h : Heap V) (a : Arr) (s : Dev) (junk : Int → V) : Outcome V :=
  if a.numel > 1 then .throws .runtimeError
  else do
    let (h', r) ← moveTo B h a s ⟨.cpu, 0⟩ junk
    h'.load r.blk 0

/-- The `int` accumulator of `scalarize(index)` (`ndarray.cpp:245-248`): every sum is cut to 32 bits. -/
def offset32 : List Dim → List Int → Int → Int
  | d :: ds, i :: is, acc => offset32 ds is ((acc + (d.offset + i * d.stride)).bmod (2 ^ 32))
  | _, _, acc => acc

/-- `scalarize(index)` (`ndarray.cpp:238-251`): the index is not compared with the shape, and the
pointer is followed on the host whatever the device. -/
def scalarizeAt (h : Heap V) (a : Arr) (s : Dev) (idx : List Int) : Outcome V :=
  if idx.length ≠ a.dims.length then .throws .runtimeError
  else if s.kind = .cuda then .ub
  else h.load a.blk (offset32 a.dims idx 0)

theorem offset32_eq (dims : List Dim) (idx : List Int) (acc : Int) (h : dims ≠ [])
    (hl : idx.length = dims.length) :
    offset32 dims idx acc = (acc + Nd.addr dims idx).bmod (2 ^ 32) := by
  induction dims generalizing idx acc with
  | nil => exact absurd rfl h
  | cons d ds ih =>
    cases idx with
    | nil => simp at hl
    | cons i is =>
      simp only [offset32, Nd.addr]
      by_cases hd : ds = []
      · subst hd
        simp at hl; subst hl
        simp [offset32, Nd.addr]
      · rw [ih is _ hd (by simpa using hl), Int.bmod_add_bmod]; congr 1; ring

theorem origin_valid {shape : List Int} (h : ∀ x ∈ shape, 0 < x) :
    ValidIdx shape (List.replicate shape.length 0) := by
  induction shape with
  | nil => exact .nil
  | cons x xs ih =>
    exact .cons ⟨le_refl 0, h x (by simp)⟩ (ih (fun y hy => h y (List.mem_cons_of_mem _ hy)))

theorem addr_origin (dims : List Dim) (n : Nat) (hn : n = dims.length) :
    Nd.addr dims (List.replicate n 0) = (dims.map Dim.offset).sum := by
  subst hn
  induction dims with
  | nil => rfl
  | cons d ds ih =>
    simp only [List.length_cons, List.replicate_succ, Nd.addr, List.map_cons, List.sum_cons, ih]; ring

theorem size_zero {shape : List Int} (h : (0 : Int) ∈ shape) : (denseDims shape).2 = 0 := by
  induction shape with
  | nil => simp at h
  | cons x xs ih =>
    simp only [denseDims]
    rcases List.mem_cons.1 h with rfl | h
    · simp
    · simp [ih h]

theorem sizes_pos {a : Arr} (ha : a.WF) (hn : a.numel ≠ 0) : ∀ x ∈ a.shape, 0 < x := by
  intro x hx
  rcases lt_or_eq_of_le (shape_nonneg ha x hx) with h | h
  · exact h
  · subst h
    exact absurd ((denseDims_numel a.shape).symm.trans (size_zero hx)) hn

/-- C103, proved part: the element of a one-element array on the CPU whose offsets are 0 is what
`scalarize` returns. -/
theorem C103_scalarize_partial (B : Build) (h : Heap V) (a : Arr) (ha : a.WF) (hn : a.numel = 1)
    (h0 : a.base = 0) (A : List Int → V) (hA : h.Contains a A) (idx : List Int)
    (hi : ValidIdx a.shape idx) (junk : Int → V) : scalarize B h a ⟨.cpu, 0⟩ junk = .ok (A idx) := by
  have hv := origin_valid (sizes_pos ha (by omega))
  have e : List.replicate a.shape.length 0 = idx := by
    have h1 := dense_bounds hi
    have h2 := dense_bounds hv
    rw [denseDims_numel, show (a.shape.foldl (· * ·) 1) = 1 from hn] at h1 h2
    exact dense_inj hv hi (by omega)
  have := hA idx hi
  rw [← e, Heap.get, addr_origin _ _ (by simp [Arr.shape]), ← base_sum, h0] at this
  unfold scalarize
  rw [if_neg (by omega), C104_same_device]
  simp only [Outcome.bind_ok, Heap.load]
  rw [Buf.load_some this, ← e]

/-- C103 fails: on the CPU `scalarize` returns the first element of the memory, not that of the array;
every one-element slice gives the first element of what it was cut from. -/
theorem C103_offset_ignored (B : Build) (h : Heap V) (a : Arr) (hn : a.numel ≤ 1) (v : V)
    (hv : h.mem a.blk 0 = some v) (junk : Int → V) : scalarize B h a ⟨.cpu, 0⟩ junk = .ok v := by
  unfold scalarize
  rw [if_neg (by omega), C104_same_device]
  simp only [Outcome.bind_ok, Heap.load]
  exact Buf.load_some hv

/-- C103: of an array on a cuda device `scalarize` returns its element, wherever it is in memory. -/
theorem C103_device_scalar (B : Build) (hB : B.cuda = true) (h : Heap V) (a : Arr) (ha : a.WF)
    (hb : a.blk < h.next) (s : Dev) (hs : s.kind = .cuda ∨ s.kind = .cudaManaged) (hn : a.numel = 1)
    (v : V) (hv : h.mem a.blk a.base = some v) (junk : Int → V) :
    scalarize B h a s junk = .ok v := by
  obtain ⟨h', r, h1, h2, h3, h4, h5, h6⟩ := C104_to_host_exact B hB h a ha hb s ⟨.cpu, 0⟩ hs (.inl rfl)
    (fun _ => v) (fun k h0 hk => by rw [show k = 0 by omega, add_zero]; exact hv) junk
  have hz := h5 _ (by rw [h2]; exact origin_valid (sizes_pos ha (by omega)))
  rw [Heap.get, addr_origin _ _ (by rw [← h2]; simp [Arr.shape]), ← base_sum, h4] at hz
  unfold scalarize
  rw [if_neg (by omega), h1]
  simp only [Outcome.bind_ok, Heap.load]
  exact Buf.load_some hz

/-- C103: an array of several elements is refused. -/
theorem C103_many_refused (B : Build) (h : Heap V) (a : Arr) (s : Dev) (hn : 1 < a.numel) (junk : Int → V) :
    scalarize B h a s junk = .throws .runtimeError := if_pos hn

/-- C103 fails: an array without elements is not refused; a new one is read outside its memory. -/
theorem C103_empty_undefined (B : Build) (h : Heap V) (shape : List Int) (hz : (0 : Int) ∈ shape)
    (junk junk' : Int → V) :
    scalarize B (alloc h shape junk).1 (alloc h shape junk).2 ⟨.cpu, 0⟩ junk' = .ub := by
  have hn : (denseDims shape).2 = 0 := size_zero hz
  have hn' : (alloc h shape junk).2.numel = 0 := by
    rw [← hn, denseDims_numel]; simp [Arr.numel, Arr.shape, alloc, denseDims_shape]
  unfold scalarize
  rw [if_neg (by omega), C104_same_device]
  simp [Heap.load, alloc, hn, Buf.ofFn, Buf.load]

/-- C103, proved part: with a valid index `scalarize` returns that element, if it lies within 2^31
elements of the start of the memory and the host can reach the memory. -/
theorem C103_index_partial (h : Heap V) (a : Arr) (s : Dev) (hs : s.kind ≠ .cuda) (A : List Int → V)
    (hA : h.Contains a A) (idx : List Int) (hi : ValidIdx a.shape idx)
    (hlo : -2 ^ 31 ≤ Nd.addr a.dims idx) (hhi : Nd.addr a.dims idx < 2 ^ 31) :
    scalarizeAt h a s idx = .ok (A idx) := by
  have hl : idx.length = a.dims.length := by rw [valid_length hi]; simp [Arr.shape]
  unfold scalarizeAt
  rw [if_neg (by simp [hl]), if_neg hs]
  have : offset32 a.dims idx 0 = Nd.addr a.dims idx := by
    by_cases hd : a.dims = []
    · rw [hd] at hl ⊢
      simp at hl; subst hl; rfl
    · rw [offset32_eq _ _ _ hd hl, zero_add]
      exact Int.bmod_eq_of_le (by norm_num at hlo ⊢; omega) (by norm_num at hhi ⊢; omega)
  rw [this]
  exact Buf.load_some (hA idx hi)

/-- C103 fails: an element 2^31 or more elements into the memory (and less than 2^32) is looked for in
front of it. -/
theorem C103_far_undefined (h : Heap V) (a : Arr) (s : Dev) (idx : List Int)
    (hi : ValidIdx a.shape idx) (hlo : 2 ^ 31 ≤ Nd.addr a.dims idx) (hhi : Nd.addr a.dims idx < 2 ^ 32)
    (hm : ∀ i < 0, h.mem a.blk i = none) : scalarizeAt h a s idx = .ub := by
  have hl : idx.length = a.dims.length := by rw [valid_length hi]; simp [Arr.shape]
  unfold scalarizeAt
  rw [if_neg (by simp [hl])]
  split
  · rfl
  · have hd : a.dims ≠ [] := by
      intro e; rw [e] at hl hlo; simp at hl; subst hl; norm_num [Nd.addr] at hlo
    rw [offset32_eq _ _ _ hd hl, zero_add]
    have : (Nd.addr a.dims idx).bmod (2 ^ 32) = Nd.addr a.dims idx - 2 ^ 32 := by
      have := Int.bmod_eq_of_le (n := Nd.addr a.dims idx - 2 ^ 32) (m := 2 ^ 32)
        (by norm_num at hlo ⊢; omega) (by norm_num at hhi ⊢; omega)
      rw [← this]
      simp [Int.bmod, Int.emod_emod_of_dvd]
    rw [this]
    unfold Heap.load Buf.load
    rw [hm _ (by omega)]

/-- C103: an index of another rank is refused. -/
theorem C103_wrong_rank_refused (h : Heap V) (a : Arr) (s : Dev) (idx : List Int)
    (hl : idx.length ≠ a.dims.length) : scalarizeAt h a s idx = .throws .runtimeError := if_pos hl

/-- C103 fails: on a cuda device the memory is read from the host. -/
theorem C103_device_index_undefined (h : Heap V) (a : Arr) (s : Dev) (hs : s.kind = .cuda) (idx : List Int)
    (hl : idx.length = a.dims.length) : scalarizeAt h a s idx = .ub := by
  simp [scalarizeAt, hl, hs]

/-- The element 5 as a one-element slice reads 0; through an index it reads 5; an index behind the end
of the first row reads the second row, and one before the array is undefined. -/
example : scalarize exBuild exHeap { blk := 0, dims := [⟨1, 3, 3⟩, ⟨1, 1, 2⟩] } ⟨.cpu, 0⟩ (fun _ => 99) = .ok 0 ∧
    scalarizeAt exHeap exArr ⟨.cpu, 0⟩ [1, 2] = .ok 5 ∧
    scalarizeAt exHeap exArr ⟨.cpu, 0⟩ [0, 3] = .ok 3 ∧
    scalarizeAt exHeap exArr ⟨.cpu, 0⟩ [0, -1] = .ub ∧
    scalarize exBuild exHeap { blk := 0, dims := [⟨1, 3, 3⟩, ⟨1, 1, 2⟩] } ⟨.cuda, 0⟩ (fun _ => 99) = .ok 5 := by
  decide +kernel

end Bliss.Move
