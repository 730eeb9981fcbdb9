import Verif.Misc.Move
import Verif.Misc.Types

/-!
# Arrays used from Python (C128, C129)

Models the functions of the Python module that take arrays of other frameworks
(bland/python/pybland.hpp lines 90-226, 266-271, 304-326) and the state of an array for pickling
(lines 41-61).
-/

namespace Bliss.Python

open Nd Device Move Types

variable {V : Type}

/-! ## Model -/

/-- The functions of one array, e.g. `square` (`pybland.hpp:219-221`): the argument is taken over
(`:304-326`), the library operation makes a new array, and the caller sees that array through
`__dlpack__` (`:24-30`). The byte offset of a new array is 0 (`bland_tensor_internals.cpp:75`). -/
def unary (op : V → V) (h : Heap V) (t : DLTensor) (junk : Int → V) : Outcome (Heap V × DLTensor) := do
  let a ← fromDlpack t
  let (h', r) ← unaryOp op h a junk
  pure (h', toDlpack 0 r)

/-- The functions of an array and a number: `add`, `subtract`, `multiply`, `less_than`,
`greater_than` (`pybland.hpp:93-98,115-131,142-169,176-216`), with the number and the conversions of
the elements in `op`. -/
def scalar (op : V → V) (h : Heap V) (t : DLTensor) (junk : Int → V) : Outcome (Heap V × DLTensor) := do
  let a ← fromDlpack t
  let (h', r) ← scalarOp op h a junk
  pure (h', toDlpack 0 r)

/-- `add` and `divide` of two arrays (`pybland.hpp:90-92,172-174`). -/
def binary (op : V → V → V) (h : Heap V) (t u : DLTensor) (junk : Int → V) :
    Outcome (Heap V × DLTensor) := do
  let a ← fromDlpack t
  let b ← fromDlpack u
  let (h', r) ← binOp op h a b junk
  pure (h', toDlpack 0 r)

/-- `subtract` and `multiply` of two arrays (`pybland.hpp:112-114,139-141`). -/
def binaryLeft (op : V → V → V) (h : Heap V) (t u : DLTensor) (junk : Int → V) :
    Outcome (Heap V × DLTensor) := do
  let a ← fromDlpack t
  let b ← fromDlpack u
  let (h', r) ← binOpLeft op h a b junk
  pure (h', toDlpack 0 r)

/-- `slice` (`pybland.hpp:266-271`): the slice is copied before it is returned. -/
def slice (h : Heap V) (t : DLTensor) (dim start stop stride : Int) (junk : Int → V) :
    Outcome (Heap V × DLTensor) := do
  let a ← fromDlpack t
  let s ← Nd.slice a dim start stop stride
  let (h', r) ← unaryOp id h s junk
  pure (h', toDlpack 0 r)

/-- The tuple of `__getstate__` (`pybland.hpp:41-56`); the bytes are taken as whole elements. -/
structure PickleState (V : Type) where
  data : List V
  dtype : Dtype
  dev : Dev
  shape : List Int
  strides : List Int
  offsets : List Int

/-- Reading the elements `0, 1, …, n - 1` of a block. -/
def readFirst (h : Heap V) (blk : Nat) (n : Nat) : Outcome (List V) :=
  forLoop n (fun i acc => do
    let v ← h.load blk i
    pure (acc ++ [v])) []

/-- `__getstate__` (`pybland.hpp:41-56`): `numel` elements from the start of the allocation. The
pointer is used on the host, which is undefined for memory of a cuda device. -/
def getState (h : Heap V) (a : Arr) (dtype : Dtype) (dev : Dev) : Outcome (PickleState V) :=
  if dev.kind = .cuda then .ub
  else do
    let data ← readFirst h a.blk a.numel.toNat
    pure { data := data, dtype := dtype, dev := dev, shape := a.shape, strides := a.strides
           offsets := a.dims.map Dim.offset }

/-- `__setstate__` (`pybland.hpp:57-60`): the body is a comment, so the object stays what the
allocation left in it. -/
def setState (self : Arr) (_ : PickleState V) : Arr := self

/-! ## Specification -/

/-- An array of numpy or another framework, as nanobind hands it over: strides given, the pointer at
the first element, and in memory `h` its element at `idx` is `A idx`. -/
structure Given (h : Heap V) (t : DLTensor) (A : List Int → V) : Prop where
  strides : ∃ st, t.strides = some st ∧ st.length = t.shape.length
  start : t.byteOffset = 0
  sizes : ∀ s ∈ t.shape, 0 ≤ s
  memory : t.blk < h.next
  elements : ∀ idx, ValidIdx t.shape idx → Heap.seen h t idx = some (A idx)

/-- The caller gets the array `t` of shape `sh` in which they see `R idx` at `idx`; it has memory
of its own and nothing that existed before has changed. -/
structure Result (h h' : Heap V) (t : DLTensor) (sh : List Int) (R : List Int → V) : Prop where
  shape : t.shape = sh
  elements : ∀ idx, ValidIdx sh idx → Heap.seen h' t idx = some (R idx)
  own : h.next ≤ t.blk
  untouched : ∀ b, b < h.next → h'.mem b = h.mem b

/-- An array handed over as `a`. -/
theorem Given.taken {h : Heap V} {t : DLTensor} {A : List Int → V} (g : Given h t A) :
    ∃ a, fromDlpack t = .ok a ∧ a.shape = t.shape ∧ a.blk = t.blk ∧ a.WF ∧ h.Contains a A := by
  obtain ⟨st, hst, hl⟩ := g.strides
  obtain ⟨a, h1, h2, -, h4⟩ := C102_import_partial h t st hst hl g.start
  refine ⟨a, h1, h2, ?_, ?_, ?_⟩
  · rw [fromDlpack, hst] at h1; cases h1; rfl
  · intro d hd
    exact g.sizes _ (h2 ▸ List.mem_map_of_mem hd)
  · intro idx hi
    rw [h2] at hi
    rw [h4 idx hi, g.elements idx hi]

/-- A new array as the caller sees it. -/
theorem result_of_alloc {h h' : Heap V} {sh : List Int} {junk : Int → V} {R : List Int → V}
    (hc : h'.Contains (alloc h sh junk).2 R) (hf : h.Frame h') :
    Result h h' (toDlpack 0 (alloc h sh junk).2) sh R := by
  have hs : (alloc h sh junk).2.shape = sh := denseDims_shape sh
  have h0 : ∀ d ∈ (alloc h sh junk).2.dims, d.offset = 0 := by
    have : ∀ l : List Int, ∀ d ∈ (denseDims l).1, d.offset = 0 := by
      intro l
      induction l with
      | nil => intro d hd; cases hd
      | cons s ss ih =>
        intro d hd
        simp only [denseDims, List.mem_cons] at hd
        rcases hd with rfl | hd
        · rfl
        · exact ih d hd
    exact this sh
  refine ⟨hs, fun idx hi => ?_, le_refl _, hf⟩
  rw [← hs] at hi
  rw [C102_export_partial h' _ h0 idx hi, hc idx hi]

/-! ## C129: operations see and return the elements the caller sees -/

/-- **C129 (one array).** For every strided array of another framework, the caller gets a new array of
the same shape with the operation applied to every element they see. -/
theorem C129_unary (op : V → V) (h : Heap V) (t : DLTensor) (A : List Int → V) (junk : Int → V)
    (g : Given h t A) :
    ∃ h' r, unary op h t junk = .ok (h', r) ∧ Result h h' r t.shape (fun idx => op (A idx)) := by
  obtain ⟨a, e1, e2, e3, e4, e5⟩ := g.taken
  obtain ⟨h', r, u1, -, -, u4, u5⟩ := C50_unary_new op h a junk A e4 e5 (by rw [e3]; exact g.memory)
  have hr : r = (alloc h a.shape junk).2 := by
    unfold unaryOp at u1
    simp only at u1
    cases hu : unaryLoop op (alloc h a.shape junk).1 (alloc h a.shape junk).2 a with
    | ok x => rw [hu] at u1; cases u1; rfl
    | throws e => rw [hu] at u1; cases u1
    | ub => rw [hu] at u1; cases u1
  refine ⟨h', toDlpack 0 r, ?_, ?_⟩
  · simp only [unary, e1, u1, Outcome.bind_ok, Outcome.pure_eq]
  · subst hr
    rw [← e2]
    exact result_of_alloc u4 u5

/-- **C129 (array and number).** -/
theorem C129_scalar (op : V → V) (h : Heap V) (t : DLTensor) (A : List Int → V) (junk : Int → V)
    (g : Given h t A) :
    ∃ h' r, scalar op h t junk = .ok (h', r) ∧ Result h h' r t.shape (fun idx => op (A idx)) := by
  obtain ⟨a, e1, e2, e3, e4, e5⟩ := g.taken
  obtain ⟨h', r, u1, -, -, u4, u5⟩ := C48_scalar_op op h a junk A e4 e5 (by rw [e3]; exact g.memory)
  have hr : r = (alloc h a.shape junk).2 := by
    unfold scalarOp at u1
    simp only at u1
    cases hu : scalarLoop op (alloc h a.shape junk).1 (alloc h a.shape junk).2 a with
    | ok x => rw [hu] at u1; cases u1; rfl
    | throws e => rw [hu] at u1; cases u1
    | ub => rw [hu] at u1; cases u1
  refine ⟨h', toDlpack 0 r, ?_, ?_⟩
  · simp only [scalar, e1, u1, Outcome.bind_ok, Outcome.pure_eq]
  · subst hr
    rw [← e2]
    exact result_of_alloc u4 u5

/-- **C129 (two arrays, partial).** `add` and `divide` combine the elements the caller sees at the
same index, for arrays of the same shape. Missing: arrays of different shapes, where C47 says what
becomes of them. -/
theorem C129_binary_partial (op : V → V → V) (h : Heap V) (t u : DLTensor) (A B : List Int → V)
    (junk : Int → V) (g : Given h t A) (k : Given h u B) (hs : u.shape = t.shape)
    (hne : t.shape ≠ []) (hpos : ∀ s ∈ t.shape, 1 ≤ s) :
    ∃ h' r, binary op h t u junk = .ok (h', r) ∧
      Result h h' r t.shape (fun idx => op (A idx) (B idx)) := by
  obtain ⟨a, e1, e2, e3, e4, e5⟩ := g.taken
  obtain ⟨b, f1, f2, f3, f4, f5⟩ := k.taken
  have hab : a.shape = b.shape := by rw [e2, f2, hs]
  have hexp : expandShapes a.shape b.shape = .ok t.shape := by
    rw [← hab, e2]; exact C46_idempotent _
  obtain ⟨h', r, u1, -, u3, u4⟩ := C47_binary_partial op h a b junk A B t.shape hexp hne
    (e2 ▸ hpos) (hab ▸ e2 ▸ hpos) (frontSafe_of_length (by rw [e2])) (frontSafe_of_length (by rw [f2, hs]))
    e5 f5 (by rw [e3]; exact g.memory) (by rw [f3]; exact k.memory)
  have hr : r = (alloc h t.shape junk).2 := by
    unfold binOp at u1
    rw [hexp] at u1
    simp only [Outcome.bind_ok] at u1
    split at u1
    · cases u1
    · cases hu : binInto op (alloc h t.shape junk).1 (alloc h t.shape junk).2 a b with
      | ok x => rw [hu] at u1; cases u1; rfl
      | throws e => rw [hu] at u1; cases u1
      | ub => rw [hu] at u1; cases u1
  refine ⟨h', toDlpack 0 r, ?_, ?_⟩
  · simp only [binary, e1, f1, u1, Outcome.bind_ok, Outcome.pure_eq]
  · subst hr
    have := result_of_alloc u3 u4
    refine ⟨this.shape, fun idx hi => ?_, this.own, this.untouched⟩
    rw [this.elements idx hi, ← hab, e2, bcIdx_self hi]

/-- **C129 (two arrays, partial).** The same for `subtract` and `multiply`. -/
theorem C129_binary_left_partial (op : V → V → V) (h : Heap V) (t u : DLTensor) (A B : List Int → V)
    (junk : Int → V) (g : Given h t A) (k : Given h u B) (hs : u.shape = t.shape)
    (hne : t.shape ≠ []) :
    ∃ h' r, binaryLeft op h t u junk = .ok (h', r) ∧
      Result h h' r t.shape (fun idx => op (A idx) (B idx)) := by
  obtain ⟨a, e1, e2, e3, e4, e5⟩ := g.taken
  obtain ⟨b, f1, f2, f3, f4, f5⟩ := k.taken
  have hab : b.shape = a.shape := by rw [e2, f2, hs]
  obtain ⟨h', r, u1, -, u3, u4⟩ := C47_subtract_multiply_partial op h a b junk A B (e2 ▸ hne) e4
    (hab ▸ broadcastsTo_self _) (frontSafe_of_length (by rw [hab])) e5 f5
    (by rw [e3]; exact g.memory) (by rw [f3]; exact k.memory)
  have hr : r = (alloc h a.shape junk).2 := by
    unfold binOpLeft at u1
    simp only at u1
    split at u1
    · cases u1
    · cases hu : binInto op (alloc h a.shape junk).1 (alloc h a.shape junk).2 a b with
      | ok x => rw [hu] at u1; cases u1; rfl
      | throws e => rw [hu] at u1; cases u1
      | ub => rw [hu] at u1; cases u1
  refine ⟨h', toDlpack 0 r, ?_, ?_⟩
  · simp only [binaryLeft, e1, f1, u1, Outcome.bind_ok, Outcome.pure_eq]
  · subst hr
    have := result_of_alloc u3 u4
    rw [e2] at this
    refine ⟨by rw [e2]; exact this.shape, fun idx hi => ?_, this.own, this.untouched⟩
    have h1 := this.elements idx hi
    rw [hab, e2, bcIdx_self hi] at h1
    rw [e2]
    exact h1

/-- **C129 (slices, partial).** For bounds inside the array and a positive step, the caller gets a
new array in which they see the elements `start, start + stride, …` along the dimension, and what
they passed is unchanged. Missing: negative bounds, and a last element when the step does not divide
the length (both as in C44). -/
theorem C129_slice_partial (h : Heap V) (t : DLTensor) (A : List Int → V) (junk : Int → V)
    (g : Given h t A) (dim : Nat) (n start stop stride : Int) (hd : t.shape[dim]? = some n)
    (h0 : 0 ≤ start) (hle : start ≤ n) (hstop : start ≤ stop) (hst : 0 < stride) :
    ∃ h' r, slice h t dim start stop stride junk = .ok (h', r) ∧
      Result h h' r (t.shape.set dim (if stride ∣ min stop n - start
          then stepCount start (min stop n) stride else stepCount start (min stop n) stride - 1))
        (fun idx => A (sliceIdx dim start stride idx)) := by
  obtain ⟨a, e1, e2, e3, e4, e5⟩ := g.taken
  have hl : dim < a.dims.length := by
    have := (List.getElem?_eq_some_iff.1 (e2 ▸ hd)).1
    simpa [Arr.shape] using this
  have hdn : a.dims[dim].size = n := by
    rw [← e2] at hd
    simpa [Arr.shape, List.getElem?_eq_getElem hl] using hd
  obtain ⟨s, s1, s2, s3⟩ := C44_slice_partial a dim start stop stride a.dims[dim]
    (List.getElem?_eq_getElem hl) h0 (by rw [hdn]; exact hle) hstop hst
  rw [hdn, e2] at s3
  have hwf := (slice_view h0 hst s1).2 e4
  obtain ⟨h', r, u1, -, -, u4, u5⟩ := C50_unary_new id h s junk _ hwf (s2.contains e5)
    (by rw [s2.blk, e3]; exact g.memory)
  have hr : r = (alloc h s.shape junk).2 := by
    unfold unaryOp at u1
    simp only at u1
    cases hu : unaryLoop id (alloc h s.shape junk).1 (alloc h s.shape junk).2 s with
    | ok x => rw [hu] at u1; cases u1; rfl
    | throws e => rw [hu] at u1; cases u1
    | ub => rw [hu] at u1; cases u1
  refine ⟨h', toDlpack 0 r, ?_, ?_⟩
  · simp only [slice, e1, s1, u1, Outcome.bind_ok, Outcome.pure_eq]
  · subst hr
    rw [← s3]
    exact result_of_alloc u4 u5

/-! ## C128: the state of an array -/

theorem readFirst_ok (h : Heap V) (blk n : Nat) (f : Nat → V)
    (hf : ∀ i : Nat, i < n → h.mem blk i = some (f i)) :
    readFirst h blk n = .ok ((List.range n).map f) := by
  unfold readFirst
  induction n with
  | zero => rfl
  | succ n ih =>
    rw [forLoop_succ, ih (fun i hi => hf i (by omega)), Outcome.bind_ok]
    have := hf n (by omega)
    simp [Heap.load, Buf.load, this, List.range_succ]

/-- **C128 (partial): what is stored.** For an array whose elements follow each other row by row from
the start of its memory, the state has all elements in that order, and shape, strides and offsets.
Missing: everything else (`C128_state_wrong`, `C128_restored_ignores_state`). -/
theorem C128_state_partial (h : Heap V) (shape : List Int) (hs : ∀ s ∈ shape, 0 ≤ s) (blk : Nat)
    (A : List Int → V) (dtype : Dtype) (dev : Dev) (hd : dev.kind ≠ .cuda)
    (hA : h.Contains { blk := blk, dims := (denseDims shape).1 } A) :
    ∃ st, getState h { blk := blk, dims := (denseDims shape).1 } dtype dev = .ok st ∧
      st.shape = shape ∧ st.dtype = dtype ∧ st.dev = dev ∧
      (st.data.length : Int) = shape.prod ∧
      ∀ idx, ValidIdx shape idx →
        st.data[(Nd.addr (denseDims shape).1 idx).toNat]? = some (A idx) := by
  have hnum : (Arr.mk blk (denseDims shape).1).numel = (denseDims shape).2 := by
    unfold Arr.numel Arr.shape
    rw [denseDims_shape, denseDims_numel]
  have hprod : (denseDims shape).2 = shape.prod := by
    rw [denseDims_numel, List.prod_eq_foldl]
  have hpos : 0 ≤ (denseDims shape).2 := by
    rw [hprod]
    clear hA hnum hprod
    induction shape with
    | nil => simp
    | cons s ss ih =>
      rw [List.prod_cons]
      exact Int.mul_nonneg (hs s (by simp)) (ih (fun x hx => hs x (by simp [hx])))
  have hval : ∀ i : Nat, i < (denseDims shape).2.toNat → ∃ v, h.mem blk i = some v := by
    intro i hi
    obtain ⟨idx, h1, h2⟩ := dense_surj hs i (by omega) (by omega)
    have := hA idx (by simpa [Arr.shape, denseDims_shape] using h1)
    exact ⟨_, by rw [← h2]; exact this⟩
  have hread := readFirst_ok h blk (denseDims shape).2.toNat
    (fun i => if hi : i < (denseDims shape).2.toNat then (hval i hi).choose else A [])
    (fun i hi => by rw [dif_pos hi]; exact (hval i hi).choose_spec)
  refine ⟨_, by
    unfold getState
    rw [if_neg hd, hnum, hread, Outcome.bind_ok, Outcome.pure_eq], denseDims_shape shape, rfl, rfl, ?_, ?_⟩
  · simp only [List.length_map, List.length_range]
    rw [← hprod]; omega
  · intro idx hi
    obtain ⟨b1, b2⟩ := dense_bounds hi
    have hlt : (Nd.addr (denseDims shape).1 idx).toNat < (denseDims shape).2.toNat := by omega
    have hx := hA idx (by simpa [Arr.shape, denseDims_shape] using hi)
    have hc := (hval _ hlt).choose_spec
    have hx : h.mem blk ((Nd.addr (denseDims shape).1 idx).toNat : Int) = some (A idx) := by
      rw [Int.toNat_of_nonneg b1]; exact hx
    have hc := hx.symm.trans hc
    simp only [List.getElem?_map, List.getElem?_range hlt, Option.map_some, dif_pos hlt]
    exact hc.symm

/-- **C128 is violated: elements are missing.** An element that does not lie among the first `numel`
elements of the memory is not in the state: the state is the same whatever its value. -/
theorem C128_state_misses (h : Heap V) (a : Arr) (idx : List Int)
    (hout : Nd.addr a.dims idx < 0 ∨ a.numel ≤ Nd.addr a.dims idx) (w : V) (dtype : Dtype) (dev : Dev) :
    getState { h with mem := fun b i => if b = a.blk ∧ i = Nd.addr a.dims idx then some w else h.mem b i }
      a dtype dev = getState h a dtype dev := by
  have : ∀ n : Nat, (n : Int) ≤ max a.numel 0 →
      readFirst { h with mem := fun b i => if b = a.blk ∧ i = Nd.addr a.dims idx then some w else h.mem b i }
        a.blk n = readFirst h a.blk n := by
    intro n hn
    unfold readFirst
    induction n with
    | zero => rfl
    | succ n ih =>
      rw [forLoop_succ, forLoop_succ, ih (by omega)]
      congr 1
      funext acc
      unfold Heap.load Buf.load
      simp only
      rw [if_neg (by omega)]
  unfold getState
  rw [this _ (by omega)]

/-- **C128 is violated: nothing is restored.** Whatever is in the object `__setstate__` is called on,
there is an array whose state was taken and which does not come back: not even its shape does. -/
theorem C128_not_restored (v : V) (self : Arr) (dtype : Dtype) :
    ∃ (h : Heap V) (a : Arr) (st : PickleState V), getState h a dtype ⟨.cpu, 0⟩ = .ok st ∧
      h.Contains a (fun _ => v) ∧ (setState self st).shape ≠ a.shape := by
  have key : ∀ n : Int, 0 ≤ n → ∃ st : PickleState V,
      getState ⟨fun _ _ => some v, 1⟩ { blk := 0, dims := (denseDims [n]).1 } dtype ⟨.cpu, 0⟩ = .ok st := by
    intro n hn
    obtain ⟨st, h1, -⟩ := C128_state_partial (⟨fun _ _ => some v, 1⟩ : Heap V) [n] (by simpa using hn) 0
      (fun _ => v) dtype ⟨.cpu, 0⟩ (by simp) (fun _ _ => rfl)
    exact ⟨st, h1⟩
  by_cases hs : self.shape = [1]
  · obtain ⟨st, h1⟩ := key 2 (by omega)
    exact ⟨_, _, st, h1, fun _ _ => rfl, by
      rw [setState, hs]; simp [Arr.shape, denseDims]⟩
  · obtain ⟨st, h1⟩ := key 1 (by omega)
    exact ⟨_, _, st, h1, fun _ _ => rfl, by simpa [setState, Arr.shape, denseDims] using hs⟩

/-! ## Concrete cases -/

/-- A 2×3 array of numpy, seen with its columns in reverse order (`x[:, ::-1]`). -/
def exReversed : DLTensor := { blk := 0, byteOffset := 0, shape := [2, 3], strides := some [3, -1] }

/-- Its memory; the pointer is at the last element of the first row. -/
def exMemory : Heap Int := ⟨fun _ i => if -2 ≤ i ∧ i < 4 then some (i + 2) else none, 1⟩

theorem exReversed_given : Given exMemory exReversed (fun idx => 3 * idx.headD 0 + 2 - idx.getLastD 0) where
  strides := ⟨[3, -1], rfl, rfl⟩
  start := rfl
  sizes := by decide
  memory := by decide
  elements := by
    intro idx hi
    unfold ValidIdx exReversed at hi
    cases hi with
    | cons h1 hr =>
      cases hr with
      | cons h2 hr' =>
        cases hr'
        simp only [Heap.seen, DLTensor.addr, exReversed, exMemory, Option.getD_some, List.zipWith_cons_cons,
          List.zipWith_nil_left, List.sum_cons, List.sum_nil, List.headD_cons, List.getLastD_cons,
          List.getLastD_nil]
        rw [if_pos (by omega)]
        congr 1
        ring

/-- Every second column of the reversed array. -/
example : ∃ h' r, slice exMemory exReversed 1 0 2 2 (fun _ => 7) = .ok (h', r) ∧ r.shape = [2, 1] ∧
    Heap.seen h' r [1, 0] = some 5 ∧ ∀ b, b < 1 → h'.mem b = exMemory.mem b := by
  obtain ⟨h', r, h1, h2⟩ := C129_slice_partial exMemory exReversed _ (fun _ => 7) exReversed_given 1 3 0 2 2
    rfl (by omega) (by omega) (by omega) (by omega)
  refine ⟨h', r, h1, h2.shape.trans (by decide), ?_, h2.untouched⟩
  exact h2.elements [1, 0] (by
    have : ([2, 3] : List Int).set 1 (if (2 : Int) ∣ min 2 3 - 0 then stepCount 0 (min 2 3) 2
        else stepCount 0 (min 2 3) 2 - 1) = [2, 1] := by decide
    rw [show exReversed.shape = [2, 3] from rfl, this]
    exact .cons (by omega) (.cons (by omega) .nil))

/-- The sum of an array with itself. -/
example : ∃ h' r, binary (· + ·) exMemory exReversed exReversed (fun _ => 7) = .ok (h', r) ∧
    Heap.seen h' r [1, 0] = some 10 := by
  obtain ⟨h', r, h1, h2⟩ := C129_binary_partial (· + ·) exMemory exReversed exReversed _ _ (fun _ => 7)
    exReversed_given exReversed_given rfl (by decide) (by decide)
  exact ⟨h', r, h1, h2.elements [1, 0] (.cons (by omega) (.cons (by omega) .nil))⟩

/-- The last column of the 2×3 array `Move.exArr`: neither of its elements 2 and 5 is in the
state. -/
example : (match getState Move.exHeap Move.exCol ⟨.int, 32, 1⟩ ⟨.cpu, 0⟩ with
    | .ok st => some st.data
    | _ => none) = some [0, 1] := by decide +kernel

/-- A whole array. -/
example : (match getState Move.exHeap Move.exArr ⟨.int, 32, 1⟩ ⟨.cpu, 0⟩ with
    | .ok st => some st.data
    | _ => none) = some [0, 1, 2, 3, 4, 5] := by decide +kernel

end Bliss.Python
