import Verif.Nd.Shapes

/-!
# Properties of the array library

C43 (dense layout), C44 (slicing), C45 (writing through a slice), C46 (broadcast shape),
C47 (binary operations), C48 (array with scalar), C49 (scalar-first operators), C50 (unary
operations), C51 (squeeze/unsqueeze), C52 (reshape).

Vocabulary in `Verif/Nd/Spec.lean`: `ValidIdx`, `Heap.get`, `Heap.Contains`, `Heap.Frame`,
`ViewOf`, `sliceIdx`, `bcIdx`.
-/

namespace Bliss.Nd

variable {V : Type}

/-! ## C43: layout of a new array -/

/-- A new array of any shape with non-negative sizes has exactly the requested shape, and the
offsets of its elements enumerate `0 … numel-1` in lexicographic order of the index. -/
theorem C43_dense_layout (h : Heap V) (shape : List Int) (junk : Int → V)
    (hs : ∀ s ∈ shape, 0 ≤ s) :
    let a := (alloc h shape junk).2
    a.shape = shape ∧ a.numel = shape.foldl (· * ·) 1 ∧
    (∀ i, ValidIdx shape i → 0 ≤ addr a.dims i ∧ addr a.dims i < a.numel) ∧
    (∀ i j, ValidIdx shape i → ValidIdx shape j → (addr a.dims i < addr a.dims j ↔ i < j)) ∧
    (∀ k, 0 ≤ k → k < a.numel → ∃ i, ValidIdx shape i ∧ addr a.dims i = k ∧
      ∀ j, ValidIdx shape j → addr a.dims j = k → j = i) ∧
    ∀ i, ValidIdx shape i → (alloc h shape junk).1.get a i ≠ none := by
  have hsh : (alloc h shape junk).2.shape = shape := denseDims_shape shape
  have hnum : (alloc h shape junk).2.numel = shape.foldl (· * ·) 1 := by
    unfold Arr.numel; rw [hsh]
  refine ⟨hsh, hnum, ?_, ?_, ?_, ?_⟩
  · intro i hi
    rw [hnum, ← denseDims_numel]; exact dense_bounds hi
  · intro i j hi hj
    constructor
    · intro hlt
      by_contra hc
      rcases (show j < i ∨ j = i by
        rcases lex_trichotomy i j with h1 | h1 | h1
        · exact absurd h1 hc
        · exact .inr h1.symm
        · exact .inl h1) with h1 | h1
      · have := dense_lex hj hi h1
        change addr (denseDims shape).1 i < addr (denseDims shape).1 j at hlt
        omega
      · subst h1; exact absurd hlt (lt_irrefl _)
    · exact fun hlt => dense_lex hi hj hlt
  · intro k h0 hk
    rw [hnum, ← denseDims_numel] at hk
    obtain ⟨i, hi, he⟩ := dense_surj hs k h0 hk
    refine ⟨i, hi, he, fun j hj hje => dense_inj hj hi (hje.trans he.symm)⟩
  · intro i hi
    exact (alloc_props h shape junk hs).2.2.2.1 i (by rw [hsh]; exact hi)

/-- Non-vacuity: shape (2,3) has six elements and index (1,2) is the last. -/
example : ValidIdx [2, 3] [1, 2] ∧ addr (denseDims [2, 3]).1 [1, 2] = 5 := by
  refine ⟨?_, rfl⟩
  repeat constructor

/-! ## C44: slicing -/

theorem ceil_div (n s : Int) (hs : 0 < s) :
    (n + (s - 1)) / s = if s ∣ n then n / s else n / s + 1 := by
  have hdm := Int.emod_add_mul_ediv n s
  have hr0 := Int.emod_nonneg n (show s ≠ 0 by omega)
  have hr1 := Int.emod_lt_of_pos n hs
  split
  · rename_i hdvd
    have hz := Int.emod_eq_zero_of_dvd hdvd
    rw [show n + (s - 1) = (s - 1) + s * (n / s) by omega, Int.add_mul_ediv_left _ _ (by omega),
      Int.ediv_eq_zero_of_lt (by omega) (by omega), zero_add]
  · rename_i hndvd
    have hz : n % s ≠ 0 := fun e => hndvd (Int.dvd_of_emod_eq_zero e)
    have : n + (s - 1) = (n % s - 1) + s * (n / s + 1) := by
      rw [mul_add, mul_one]; omega
    rw [this, Int.add_mul_ediv_left _ _ (by omega), Int.ediv_eq_zero_of_lt (by omega) (by omega),
      zero_add]

/-- Slicing dimension `dim` with non-negative `start ≤ stop` and positive step: the result is a
view whose element `i` along `dim` is the parent's element `start + i*stride`, always inside the
parent. `stop` is clamped to the size. The number of elements is the exact count when the step
divides the range and one less than it otherwise: see `C44_step_drops_last`. -/
theorem C44_slice_partial (a : Arr) (dim : Nat) (start stop stride : Int) (d : Dim)
    (hd : a.dims[dim]? = some d) (h0 : 0 ≤ start) (hle : start ≤ d.size) (hstop : start ≤ stop)
    (hst : 0 < stride) :
    ∃ r, slice a dim start stop stride = .ok r ∧
      ViewOf r a (sliceIdx dim start stride) ∧
      r.shape = a.shape.set dim (if stride ∣ min stop d.size - start
        then stepCount start (min stop d.size) stride
        else stepCount start (min stop d.size) stride - 1) := by
  have hstop' : (if stop < 0 then d.size + stop - 1 else if stop > d.size then d.size else stop) =
      min stop d.size := by split <;> (try split) <;> omega
  have hok : slice a dim start stop stride = .ok (Arr.mk a.blk (a.dims.set dim
      (Dim.mk ((min stop d.size - start).tdiv stride) (d.stride * stride)
        (d.offset + start * d.stride)))) := by
    unfold slice
    have e1 : ¬ ((dim : Int) < 0) := by omega
    simp only [e1, if_false, Int.toNat_natCast, hd, hstop']
    rw [if_neg (by omega), if_neg (by omega), if_neg (by omega)]
    simp only [show ¬ start < 0 by omega, if_false]
  refine ⟨_, hok, ?_, ?_⟩
  · have := (slice_view h0 hst hok).1
    simpa using this
  · simp only [Arr.shape, List.map_set]
    congr 1
    rw [Int.tdiv_eq_ediv_of_nonneg (by omega)]
    unfold stepCount
    rw [show min stop d.size - start + stride - 1 = (min stop d.size - start) + (stride - 1) by ring,
      ceil_div _ _ hst]
    split <;> simp

/-- Chained slices (`slice(a, spec, spec, …)`) with non-negative starts and positive steps: the
result is a view through all of them, inside the parent, and never has a negative size. -/
theorem C44_slice_chain (a r : Arr) (specs : List SliceSpec)
    (hs : ∀ s ∈ specs, 0 ≤ s.start ∧ 0 < s.stride) (hwf : a.WF)
    (h : sliceMany a specs = .ok r) :
    ViewOf r a (sliceIdxMany specs) ∧ r.WF := by
  obtain ⟨h1, h2⟩ := sliceMany_view hs h
  exact ⟨h1, h2 hwf⟩

/-- What a chained slice reads: the parent's values at the selected indices. -/
theorem C44_slice_reads (h : Heap V) (a r : Arr) (specs : List SliceSpec) (A : List Int → V)
    (hs : ∀ s ∈ specs, 0 ≤ s.start ∧ 0 < s.stride) (hA : h.Contains a A)
    (hr : sliceMany a specs = .ok r) : h.Contains r (fun idx => A (sliceIdxMany specs idx)) :=
  (sliceMany_view hs hr).1.contains hA

/-- A start beyond the size is rejected. -/
theorem C44_start_past_end (a : Arr) (dim : Nat) (start stop stride : Int) (d : Dim)
    (hd : a.dims[dim]? = some d) (h0 : 0 ≤ start) (hgt : d.size < start) :
    slice a dim start stop stride = .throws .outOfRange := by
  unfold slice
  have e1 : ¬ ((dim : Int) < 0) := by omega
  simp only [e1, if_false, Int.toNat_natCast, hd]
  rw [if_pos (by omega)]

/-- A dimension the array does not have is rejected. -/
theorem C44_no_such_dim (a : Arr) (dim : Nat) (start stop stride : Int)
    (hd : a.dims.length ≤ dim) : slice a dim start stop stride = .throws .invalidArgument := by
  unfold slice
  have e1 : ¬ ((dim : Int) < 0) := by omega
  simp [e1, hd]

/-- A 1-D array of five elements in block 0. -/
def five : Arr := { blk := 0, dims := [{ size := 5, stride := 1, offset := 0 }] }

/-- A 3×4 array in block 0. -/
def threeByFour : Arr := { blk := 0, dims := (denseDims [3, 4]).1 }

/-- Non-vacuity of the chain theorem: row 1, every second column of a 3×4 array. -/
example : ∃ r, sliceMany threeByFour [⟨0, 1, 2, 1⟩, ⟨1, 0, 4, 2⟩] = .ok r ∧ r.shape = [1, 2] ∧
    sliceIdxMany [⟨0, 1, 2, 1⟩, ⟨1, 0, 4, 2⟩] [0, 1] = [1, 2] := ⟨_, rfl, by decide, by decide⟩

/-- **Violation of C44.** With a step that does not divide the range the last element is lost:
`0:5:2` of five elements has elements 0, 2, 4, but the slice has two. -/
theorem C44_step_drops_last :
    slice five 0 0 5 2 = .ok { blk := 0, dims := [{ size := 2, stride := 2, offset := 0 }] } ∧
      stepCount 0 5 2 = 3 := by decide

/-- **Violation of C44.** Negative bounds do not count from the end: `-1:5` selects elements 3 and
4 instead of element 4, and `0:-1` stops before element 3 instead of element 4. -/
theorem C44_negative_off_by_one :
    slice five 0 (-1) 5 1 = .ok { blk := 0, dims := [{ size := 2, stride := 1, offset := 3 }] } ∧
      slice five 0 0 (-1) 1 = .ok { blk := 0, dims := [{ size := 3, stride := 1, offset := 0 }] } := by
  decide

/-- **Violation of C44.** `-5:5` of five elements starts one element before the array. -/
theorem C44_negative_leaves_parent :
    slice five 0 (-5) 5 1 = .ok { blk := 0, dims := [{ size := 6, stride := 1, offset := -1 }] } := by
  decide

/-! ## C45: writing through a slice -/

/-- Assigning a scalar to a (chained) slice sets exactly the selected elements of the parent;
every other element, and every other array, keeps its value. -/
theorem C45_fill_slice (h : Heap V) (a r : Arr) (specs : List SliceSpec) (v : V)
    (hs : ∀ s ∈ specs, 0 ≤ s.start ∧ 0 < s.stride) (hwf : a.WF) (hd : a.Distinct)
    (hm : h.Mapped a) (hr : sliceMany a specs = .ok r) :
    ∃ h', fill v h r = .ok h' ∧
      (∀ idx, ValidIdx r.shape idx → h'.get a (sliceIdxMany specs idx) = some v) ∧
      (∀ j, ValidIdx a.shape j → (∀ idx, ValidIdx r.shape idx → sliceIdxMany specs idx ≠ j) →
        h'.get a j = h.get a j) ∧
      ∀ b, b ≠ a.blk → h'.mem b = h.mem b := by
  obtain ⟨hv, hw⟩ := sliceMany_view hs hr
  have hrd := hv.distinct (fun i j _ _ e =>
    sliceIdxMany_inj (fun s hx => by have := (hs s hx).2; omega) e) hd
  obtain ⟨h', e1, ⟨u1, u2⟩, _⟩ := fill_spec v h r (hw hwf) (hv.mapped hm) hrd
  refine ⟨h', e1, ?_, ?_, ?_⟩
  · intro idx hi; rw [← hv.get h' hi]; exact u1 idx hi
  · intro j hj hne
    refine u2 a.blk (addr a.dims j) (fun _ idx hi he => ?_)
    rw [hv.addr idx hi] at he
    exact hne idx hi (hd _ _ (hv.valid idx hi) hj he)
  · intro b hb
    funext i
    exact u2 b i (fun e => absurd (e.trans hv.blk) hb)

/-- Assigning an array to a (chained) slice of the same shape copies it (converted to the dtype of
the target) into exactly the selected elements. `rhs` must not live in the same allocation. -/
theorem C45_assign_slice (conv : V → V) (h : Heap V) (a r rhs : Arr) (specs : List SliceSpec)
    (R : List Int → V) (hs : ∀ s ∈ specs, 0 ≤ s.start ∧ 0 < s.stride) (hwf : a.WF)
    (hd : a.Distinct) (hm : h.Mapped a) (hr : sliceMany a specs = .ok r)
    (hshape : rhs.shape = r.shape) (hR : h.Contains rhs R) (hblk : rhs.blk ≠ a.blk) :
    ∃ h', assignSlice conv h r rhs = .ok h' ∧
      (∀ idx, ValidIdx r.shape idx →
        h'.get a (sliceIdxMany specs idx) = some (conv (R idx))) ∧
      (∀ j, ValidIdx a.shape j → (∀ idx, ValidIdx r.shape idx → sliceIdxMany specs idx ≠ j) →
        h'.get a j = h.get a j) ∧
      ∀ b, b ≠ a.blk → h'.mem b = h.mem b := by
  obtain ⟨hv, hw⟩ := sliceMany_view hs hr
  have hrd := hv.distinct (fun i j _ _ e =>
    sliceIdxMany_inj (fun s hx => by have := (hs s hx).2; omega) e) hd
  obtain ⟨h', e1, ⟨u1, u2⟩, _⟩ := unaryLoop_spec conv h r rhs hshape (hw hwf) hR (hv.mapped hm) hrd
    (fun e => absurd (e.trans hv.blk) hblk)
  refine ⟨h', e1, ?_, ?_, ?_⟩
  · intro idx hi; rw [← hv.get h' hi]; exact u1 idx hi
  · intro j hj hne
    refine u2 a.blk (addr a.dims j) (fun _ idx hi he => ?_)
    rw [hv.addr idx hi] at he
    exact hne idx hi (hd _ _ (hv.valid idx hi) hj he)
  · intro b hb
    funext i
    exact u2 b i (fun e => absurd (e.trans hv.blk) hb)

/-- A heap with block 0 = 0,1,2,… (n elements), block 1 = 100,101,… (m elements). -/
def heap2 (n m : Int) : Heap Int :=
  { mem := fun b => if b = 0 then Buf.ofFn n (fun i => i)
      else if b = 1 then Buf.ofFn m (fun i => 100 + i) else fun _ => none
    next := 2 }

/-- A dense array in block `b`. -/
def dense (b : Nat) (shape : List Int) : Arr := { blk := b, dims := (denseDims shape).1 }

theorem dense_mapped (h : Heap V) (b : Nat) (shape : List Int)
    (hm : ∀ i, 0 ≤ i → i < (denseDims shape).2 → h.mem b i ≠ none) : h.Mapped (dense b shape) := by
  intro idx hi
  simp only [dense, Arr.shape, denseDims_shape] at hi
  exact hm _ (dense_bounds hi).1 (dense_bounds hi).2

theorem dense_distinct (b : Nat) (shape : List Int) : (dense b shape).Distinct := by
  intro i j hi hj he
  simp only [dense, Arr.shape, denseDims_shape] at hi hj
  exact dense_inj hi hj he

/-- Non-vacuity: row 1 of a 3×4 array, filled with 7. -/
example : (∃ r, sliceMany (dense 0 [3, 4]) [⟨0, 1, 2, 1⟩] = .ok r) ∧ (dense 0 [3, 4]).WF ∧
    (dense 0 [3, 4]).Distinct ∧ (heap2 12 4).Mapped (dense 0 [3, 4]) := by
  refine ⟨⟨_, rfl⟩, by unfold Arr.WF; decide, dense_distinct _ _, dense_mapped _ _ _ ?_⟩
  intro i h0 h1
  have : i < 12 := h1
  simp [heap2, Buf.ofFn, h0, this]

/-- **Violation of C45.** Assigning a row to a two-dimensional slice whose rows have that length,
which the operator is said to broadcast, is undefined for every size. -/
theorem C45_row_undefined (conv : V → V) (h : Heap V) (view row : Arr) (t n : Int)
    (hv : view.shape = [t, n]) (hr : row.shape = [n]) : assignSlice conv h view row = .ub := by
  have hl : row.dims.length = 1 := by rw [← shape_length, hr]; rfl
  unfold assignSlice unaryLoop
  rw [hv, hr]
  by_cases hc : n = t ∨ n = 1
  · simp only [bcShape, hc, if_true]
    rfl
  · have hn : n ≠ 1 := fun e => hc (.inr e)
    have hnt : n ≠ t := fun e => hc (.inl e)
    have e : bcShape [n] [t, n] = .ok [1, n] := by
      simp [bcShape, hn, hnt]
    rw [e, Outcome.bind_ok, hl]
    simp only [List.drop_succ_cons, List.drop_zero]
    rw [if_pos (by simpa using hn)]
    rfl

/-- **Violation of C45** (size mismatch is not rejected): assigning a 3-element array to a
2-element slice succeeds and stores the first element in every position. -/
theorem C45_mismatch_accepted :
    heapAt (assignSlice id (heap2 2 3) (dense 0 [2]) (dense 1 [3])) 0 0 = some 100 ∧
    heapAt (assignSlice id (heap2 2 3) (dense 0 [2]) (dense 1 [3])) 0 1 = some 100 := by
  decide +kernel

/-! ## C46: broadcast shape -/

/-- Size of the `i`-th dimension counted from the last one, 1 when there is none. -/
def dimFromEnd (s : List Int) (i : Nat) : Int := s.reverse.getD i 1

/-- The combined shape exists exactly when, aligned at the last dimension, every pair of sizes is
equal or contains a 1; otherwise the operation throws `invalid_argument`. -/
theorem C46_defined_iff (a b : List Int) :
    (∃ r, expandShapes a b = .ok r) ↔
      ∀ i, Compatible (dimFromEnd a i) (dimFromEnd b i) := by
  unfold expandShapes dimFromEnd
  rcases expandRev_spec a.reverse b.reverse with ⟨h1, i, hi⟩ | ⟨r, h1, _, _, h4⟩
  · rw [h1]
    constructor
    · rintro ⟨r, hr⟩; cases hr
    · intro h; exact absurd (h i) hi
  · rw [h1]
    exact ⟨fun _ => h4, fun _ => ⟨_, rfl⟩⟩

/-- Incompatible shapes are rejected with an exception. -/
theorem C46_rejects (a b : List Int) (h : ¬ ∃ r, expandShapes a b = .ok r) :
    expandShapes a b = .throws .invalidArgument := by
  unfold expandShapes at *
  rcases expandRev_spec a.reverse b.reverse with ⟨h1, _⟩ | ⟨r, h1, _⟩
  · rw [h1]; rfl
  · rw [h1] at h; exact absurd ⟨_, rfl⟩ h

/-- The combined shape is the element-wise maximum, aligned at the last dimension. -/
theorem C46_elementwise_max (a b r : List Int) (h : expandShapes a b = .ok r) :
    r.length = max a.length b.length ∧
      ∀ i, dimFromEnd r i = max (dimFromEnd a i) (dimFromEnd b i) := by
  unfold expandShapes at h
  cases hr : expandRev a.reverse b.reverse with
  | ok q =>
    rw [hr] at h; cases h
    obtain ⟨h1, h2, _⟩ := expandRev_unique hr
    exact ⟨by simpa using h1, fun i => by simpa [dimFromEnd] using h2 i⟩
  | throws e => rw [hr] at h; cases h
  | ub => rw [hr] at h; cases h

theorem C46_commutative (a b : List Int) : expandShapes a b = expandShapes b a := by
  unfold expandShapes; rw [expandRev_comm]

theorem C46_idempotent (a : List Int) : expandShapes a a = .ok a := by
  unfold expandShapes
  obtain ⟨r, h1, h2, h3⟩ := expandRev_ok (xs := a.reverse) (ys := a.reverse)
    (fun i => .inl rfl)
  have : r = a.reverse := ext_getD (by simpa using h2) (fun i => by rw [h3, max_self])
  rw [h1, this]; simp

/-- For shapes without empty dimensions, combining is associative — including which combinations
are rejected. -/
theorem C46_associative (a b c : List Int) (ha : ∀ s ∈ a, 1 ≤ s) (hb : ∀ s ∈ b, 1 ≤ s)
    (hc : ∀ s ∈ c, 1 ≤ s) :
    (expandShapes a b >>= fun r => expandShapes r c) =
      (expandShapes b c >>= fun r => expandShapes a r) := by
  have h := expandRev_assoc (xs := a.reverse) (ys := b.reverse) (zs := c.reverse)
    (by simpa using ha) (by simpa using hb) (by simpa using hc)
  unfold expandShapes
  cases h1 : expandRev a.reverse b.reverse with
  | ok r =>
    cases h2 : expandRev b.reverse c.reverse with
    | ok q =>
      rw [h1, h2] at h
      simp only [Outcome.bind_ok] at h
      simp only [Outcome.bind_ok, Outcome.pure_eq, List.reverse_reverse, h]
    | throws e =>
      rw [h1, h2] at h
      simp only [Outcome.bind_ok, Outcome.bind_throws] at h
      simp only [Outcome.bind_ok, Outcome.bind_throws, Outcome.pure_eq, List.reverse_reverse, h]
    | ub =>
      rw [h1, h2] at h
      simp only [Outcome.bind_ok, Outcome.bind_ub] at h
      simp only [Outcome.bind_ok, Outcome.bind_ub, Outcome.pure_eq, List.reverse_reverse, h]
  | throws e =>
    cases h2 : expandRev b.reverse c.reverse with
    | ok q =>
      rw [h1, h2] at h
      simp only [Outcome.bind_ok, Outcome.bind_throws] at h
      simp only [Outcome.bind_ok, Outcome.bind_throws, Outcome.pure_eq, List.reverse_reverse, ← h]
    | throws e' =>
      rw [h1, h2] at h
      simp only [Outcome.bind_throws] at h ⊢
      cases h; rfl
    | ub => rw [h1, h2] at h; cases h
  | ub =>
    rcases expandRev_spec a.reverse b.reverse with ⟨h3, _⟩ | ⟨_, h3, _⟩ <;> rw [h1] at h3 <;> cases h3

/-- Non-vacuity and an example: (4,1,3) with (2,1) is (4,2,3). -/
example : expandShapes [4, 1, 3] [2, 1] = .ok [4, 2, 3] := by decide

/-- With an empty dimension associativity fails: ((0)·(1))·(5) is (5), (0)·((1)·(5)) is rejected. -/
theorem C46_empty_dimension :
    (expandShapes [0] [1] >>= fun r => expandShapes r [5]) = .ok [5] ∧
    (expandShapes [1] [5] >>= fun r => expandShapes [0] r) = .throws .invalidArgument := by decide

/-! ## C47: binary operations -/

theorem binOp_core (op : V → V → V) (h : Heap V) (a b : Arr) (junk : Int → V)
    (A B : List Int → V) (shape : List Int) (hne : shape ≠ []) (hpos : ∀ s ∈ shape, 0 ≤ s)
    (ba : BroadcastsTo a.shape shape) (bb : BroadcastsTo b.shape shape)
    (fa : FrontSafe a.shape shape) (fb : FrontSafe b.shape shape)
    (hA : h.Contains a A) (hB : h.Contains b B) (hla : a.blk < h.next) (hlb : b.blk < h.next) :
    ∃ h', binInto op (alloc h shape junk).1 (alloc h shape junk).2 a b = .ok h' ∧
      h'.Contains (alloc h shape junk).2
        (fun idx => op (A (bcIdx a.shape idx)) (B (bcIdx b.shape idx))) ∧
      h.Frame h' := by
  obtain ⟨p1, p2, p3, p4, p5, p6, p7⟩ := alloc_props h shape junk hpos
  have hne' : (alloc h shape junk).2.dims ≠ [] := by
    intro e
    apply hne
    rw [← p1]; simp [Arr.shape, e]
  obtain ⟨h', e1, e2, e3⟩ := binInto_spec op (alloc h shape junk).1 (alloc h shape junk).2 a b hne'
    (by rw [p1]; exact ba) (by rw [p1]; exact bb) (by rw [p1]; exact fa) (by rw [p1]; exact fb)
    p2 (Contains.frame hA hla p7) (Contains.frame hB hlb p7) p4 p3
    (fun e => by omega) (fun e => by omega)
  obtain ⟨q1, q2, _⟩ := fresh_of_updated (h := h) p7 p5 p6 e2 e3
  exact ⟨h', e1, q1, q2⟩

/-- `a + b` and `a / b`: for arrays (or slices, any strides and offsets) without empty dimensions
whose shapes combine to `shape`, the result is a new array of that shape whose element `idx` is
the operation applied to the broadcast elements; existing arrays are untouched and no access
leaves an allocation. Missing from C47: operands of lower rank whose leading size collides with
the front-aligned rewind (`FrontSafe`), which `C47_front_alignment_wrong` shows to be wrong. -/
theorem C47_binary_partial (op : V → V → V) (h : Heap V) (a b : Arr) (junk : Int → V)
    (A B : List Int → V) (shape : List Int) (hexp : expandShapes a.shape b.shape = .ok shape)
    (hne : shape ≠ []) (ha : ∀ s ∈ a.shape, 1 ≤ s) (hb : ∀ s ∈ b.shape, 1 ≤ s)
    (fa : FrontSafe a.shape shape) (fb : FrontSafe b.shape shape)
    (hA : h.Contains a A) (hB : h.Contains b B) (hla : a.blk < h.next) (hlb : b.blk < h.next) :
    ∃ h' r, binOp op h a b junk = .ok (h', r) ∧ r.shape = shape ∧
      h'.Contains r (fun idx => op (A (bcIdx a.shape idx)) (B (bcIdx b.shape idx))) ∧
      h.Frame h' := by
  obtain ⟨ba, bb⟩ := expandShapes_broadcasts hexp ha hb
  have hpos : ∀ s ∈ shape, 0 ≤ s := by
    have hmax := (C46_elementwise_max _ _ _ hexp)
    intro s hs
    obtain ⟨i, hi, rfl⟩ := List.mem_iff_getElem.mp hs
    have := hmax.2 (shape.length - 1 - i)
    have h1 : dimFromEnd shape (shape.length - 1 - i) = shape[i] := by
      unfold dimFromEnd
      rw [List.getD_eq_getElem?_getD, List.getElem?_reverse (by omega)]
      have : shape.length - 1 - (shape.length - 1 - i) = i := by omega
      rw [this, List.getElem?_eq_getElem hi]; rfl
    have h2 : 1 ≤ dimFromEnd a.shape (shape.length - 1 - i) := by
      unfold dimFromEnd
      rw [List.getD_eq_getElem?_getD]
      cases hx : a.shape.reverse[shape.length - 1 - i]? with
      | none => simp
      | some v => simpa using ha v (List.mem_reverse.mp (List.mem_of_getElem? hx))
    omega
  obtain ⟨h', e1, e2, e3⟩ := binOp_core op h a b junk A B shape hne hpos ba bb fa fb hA hB hla hlb
  refine ⟨h', (alloc h shape junk).2, ?_, denseDims_shape shape, e2, e3⟩
  unfold binOp
  rw [hexp, Outcome.bind_ok]
  simp only [binCheck_false hexp, e1, Bool.false_eq_true, if_false, Outcome.bind_ok,
    Outcome.pure_eq]

/-- Operands of equal rank always satisfy the `FrontSafe` side condition. -/
theorem frontSafe_of_length {s out : List Int} (h : s.length = out.length) : FrontSafe s out :=
  .inl h

/-- `a - b` and `a * b`: right when `b` broadcasts to the shape of `a`. Missing from C47: when `a`
itself has to be broadcast (`C47_left_operand_not_broadcast`). -/
theorem C47_subtract_multiply_partial (op : V → V → V) (h : Heap V) (a b : Arr) (junk : Int → V)
    (A B : List Int → V) (hne : a.shape ≠ []) (hwf : a.WF)
    (bb : BroadcastsTo b.shape a.shape) (fb : FrontSafe b.shape a.shape)
    (hA : h.Contains a A) (hB : h.Contains b B) (hla : a.blk < h.next) (hlb : b.blk < h.next) :
    ∃ h' r, binOpLeft op h a b junk = .ok (h', r) ∧ r.shape = a.shape ∧
      h'.Contains r (fun idx => op (A idx) (B (bcIdx b.shape idx))) ∧ h.Frame h' := by
  obtain ⟨h', e1, e2, e3⟩ := binOp_core op h a b junk A B a.shape hne (shape_nonneg hwf)
    (broadcastsTo_self _) bb (frontSafe_of_length rfl) fb hA hB hla hlb
  have hc : binCheck a b = false := by
    unfold binCheck
    by_cases hl : a.dims.length = b.dims.length
    · simp only [hl, decide_true, Bool.true_and]
      rw [List.any_eq_false]
      intro p hp
      have hbb := bb.2
      rw [shape_length, shape_length, hl, Nat.sub_self, List.drop_zero] at hbb
      have : p.2 = p.1 ∨ p.2 = 1 := by
        obtain ⟨p1, p2⟩ := p
        exact List.forall₂_zip hbb.flip hp
      simp only [decide_eq_true_eq]
      omega
    · simp [hl]
  refine ⟨h', (alloc h a.shape junk).2, ?_, denseDims_shape _, ?_, e3⟩
  · unfold binOpLeft
    simp only [hc, e1, Bool.false_eq_true, if_false, Outcome.bind_ok, Outcome.pure_eq]
  · intro idx hi
    have := e2 idx hi
    simp only [Arr.shape, alloc, denseDims_shape] at hi
    simp only [bcIdx_self (s := a.shape) hi] at this
    exact this

/-- Non-vacuity: (2,1) with (1,3). -/
example : resultAt (binOp (· + ·) (heap2 2 3) (dense 0 [2, 1]) (dense 1 [1, 3]) (fun _ => 0)) [1, 2]
    = some 103 ∧ expandShapes [2, 1] [1, 3] = .ok [2, 3] := by decide +kernel

/-- **Violation of C47.** Adding a (2,3) array to a (2,2,3) array: the smaller operand should be
repeated, but the rewind is computed from a front-aligned shape, so after the first repetition the
kernel reads past it (here: out of the allocation). -/
theorem C47_front_alignment_wrong :
    isUb (binOp (· + ·) (heap2 6 12) (dense 0 [2, 3]) (dense 1 [2, 2, 3]) (fun _ => 0)) = true ∧
      expandShapes [2, 3] [2, 2, 3] = .ok [2, 2, 3] := by decide +kernel

/-- **Violation of C47.** A one-element array cannot be broadcast over two dimensions: (1) with
(2,3) reads the shape vector out of range. -/
theorem C47_rank_one_wrong :
    isUb (binOp (· + ·) (heap2 1 6) (dense 0 [1]) (dense 1 [2, 3]) (fun _ => 0)) = true := by
  decide +kernel

/-- Arrays whose shapes do not fit together are not combined: `a + b` and `a / b` throw
`invalid_argument`, for arrays of any rank. -/
theorem C47_incompatible_rejected (op : V → V → V) (h : Heap V) (a b : Arr) (junk : Int → V)
    {i : Nat} (hi : ¬ Compatible (dimFromEnd a.shape i) (dimFromEnd b.shape i)) :
    binOp op h a b junk = .throws .invalidArgument := by
  unfold binOp
  rw [C46_rejects a.shape b.shape (by
    rw [C46_defined_iff]
    exact fun hall => hi (hall i))]
  rfl

/-- `a - b` and `a * b` throw `runtime_error` for arrays of the same rank whose shapes do not fit
together. -/
theorem C47_incompatible_same_rank_rejected (op : V → V → V) (h : Heap V) (a b : Arr)
    (junk : Int → V) (hrank : a.shape.length = b.shape.length) {i : Nat}
    (hi : ¬ Compatible (dimFromEnd a.shape i) (dimFromEnd b.shape i)) :
    binOpLeft op h a b junk = .throws .runtimeError := by
  have hc : binCheck a b = true := by
    unfold binCheck
    rw [shape_length, shape_length] at hrank
    simp only [hrank, decide_true, Bool.true_and]
    rw [List.any_eq_true]
    have hra : a.shape.reverse.length = a.dims.length := by simp [shape_length]
    have hrb : b.shape.reverse.length = b.dims.length := by simp [shape_length]
    unfold dimFromEnd at hi
    have hlt : i < a.dims.length := by
      by_contra hge
      rw [List.getD_eq_getElem?_getD, List.getD_eq_getElem?_getD,
        List.getElem?_eq_none (by omega), List.getElem?_eq_none (by omega)] at hi
      exact hi (.inl rfl)
    rw [List.getD_eq_getElem?_getD, List.getD_eq_getElem?_getD,
      List.getElem?_eq_getElem (by omega), List.getElem?_eq_getElem (by omega), Option.getD_some,
      Option.getD_some, List.getElem_reverse, List.getElem_reverse] at hi
    have ha : a.shape.length = a.dims.length := shape_length a
    have hb : b.shape.length = b.dims.length := shape_length b
    refine ⟨(a.shape[a.shape.length - 1 - i]'(by omega), b.shape[b.shape.length - 1 - i]'(by omega)),
      ?_, ?_⟩
    · refine List.mem_iff_getElem.2 ⟨a.shape.length - 1 - i, ?_, ?_⟩
      · rw [List.length_zip]; omega
      · rw [List.getElem_zip]
        congr 2
        omega
    · simp only [Compatible, not_or] at hi
      simpa using hi
  unfold binOpLeft
  rw [hc]
  rfl

example : binOpLeft (· - ·) (heap2 6 6) (dense 0 [2, 3]) (dense 1 [3, 2]) (fun _ => 0) =
    .throws .runtimeError :=
  C47_incompatible_same_rank_rejected _ _ _ _ _ rfl (i := 0) (by decide)

/-- **Violation of C47.** `a - b` never broadcasts `a`: a one-element `a` minus a three-element `b`
has one element. -/
theorem C47_left_operand_not_broadcast :
    resultShape (binOpLeft (· - ·) (heap2 1 3) (dense 0 [1]) (dense 1 [3]) (fun _ => 0)) =
      some [1] ∧ expandShapes [1] [3] = .ok [3] := by decide +kernel

/-- **Violation of C47.** `a - b` with `b` of higher rank is undefined. -/
theorem C47_left_operand_rank :
    isUb (binOpLeft (· - ·) (heap2 3 6) (dense 0 [3]) (dense 1 [2, 3]) (fun _ => 0)) = true := by
  decide +kernel

/-! ## C48: array with scalar -/

/-- `a op scalar` for any array or slice: a new array of the same shape, element `idx` is
`op (a[idx])`; existing arrays are untouched and no access leaves an allocation. -/
theorem C48_scalar_op (op : V → V) (h : Heap V) (a : Arr) (junk : Int → V) (A : List Int → V)
    (hwf : a.WF) (hA : h.Contains a A) (hla : a.blk < h.next) :
    ∃ h' r, scalarOp op h a junk = .ok (h', r) ∧ r.shape = a.shape ∧ r.blk = h.next ∧
      h'.Contains r (fun idx => op (A idx)) ∧ h.Frame h' := by
  obtain ⟨p1, p2, p3, p4, p5, p6, p7⟩ := alloc_props h a.shape junk (shape_nonneg hwf)
  obtain ⟨h', e1, e2, e3⟩ := scalarLoop_spec op (alloc h a.shape junk).1 (alloc h a.shape junk).2 a
    p1.symm p2 (Contains.frame hA hla p7) p4 p3 (fun e => by omega)
  obtain ⟨q1, q2, _⟩ := fresh_of_updated (h := h) p7 p5 p6 e2 e3
  refine ⟨h', (alloc h a.shape junk).2, ?_, p1, p5, q1, q2⟩
  unfold scalarOp
  simp only [e1, Outcome.bind_ok, Outcome.pure_eq]

/-- Non-vacuity: a sliced 3×4 array plus 10. -/
example : ∃ r, sliceMany threeByFour [⟨0, 1, 3, 1⟩, ⟨1, 0, 4, 2⟩] = .ok r ∧
    resultAt (scalarOp (· + 10) (heap2 12 1) r (fun _ => 0)) [1, 1] = some 20 :=
  ⟨_, rfl, by decide +kernel⟩

/-! ## C49: scalar-first operators -/

/-- Scalar-first `+`, `*`, `==`, `&` compute the mathematical operation when the underlying
operation is commutative; `-`, `/` and the orderings do not (see the violations below). -/
theorem C49_commutative_ops_partial (O : ScalarOps V) (s : V) (h : Heap V) (a : Arr)
    (junk : Int → V) (A : List Int → V) (hwf : a.WF) (hA : h.Contains a A) (hla : a.blk < h.next)
    (hadd : ∀ x y, O.add x y = O.add y x) (hmul : ∀ x y, O.mul x y = O.mul y x)
    (heq : ∀ x y, O.eq x y = O.eq y x) (hand : ∀ x y, O.and x y = O.and y x) :
    (∃ h' r, scalarAdd O s h a junk = .ok (h', r) ∧ r.shape = a.shape ∧
      h'.Contains r (fun idx => O.add s (A idx))) ∧
    (∃ h' r, scalarMul O s h a junk = .ok (h', r) ∧ r.shape = a.shape ∧
      h'.Contains r (fun idx => O.mul s (A idx))) ∧
    (∃ h' r, scalarEq O s h a junk = .ok (h', r) ∧ r.shape = a.shape ∧
      h'.Contains r (fun idx => O.eq s (A idx))) ∧
    (∃ h' r, scalarAnd O s h a junk = .ok (h', r) ∧ r.shape = a.shape ∧
      h'.Contains r (fun idx => O.and s (A idx))) := by
  have key : ∀ op : V → V → V, (∀ x y, op x y = op y x) →
      ∃ h' r, scalarOp (fun x => op x s) h a junk = .ok (h', r) ∧ r.shape = a.shape ∧
      h'.Contains r (fun idx => op s (A idx)) := by
    intro op hc
    obtain ⟨h', r, e1, e2, _, e3, _⟩ := C48_scalar_op (fun x => op x s) h a junk A hwf hA hla
    exact ⟨h', r, e1, e2, fun idx hi => by rw [e3 idx hi]; exact congrArg some (hc _ _)⟩
  exact ⟨key _ hadd, key _ hmul, key _ heq, key _ hand⟩

/-- What the scalar-first orderings and `-`, `/` return on every input: the operands are exchanged,
and `/` multiplies. -/
theorem C49_exchanged (O : ScalarOps V) (s : V) (h : Heap V) (a : Arr)
    (junk : Int → V) (A : List Int → V) (hwf : a.WF) (hA : h.Contains a A) (hla : a.blk < h.next) :
    (∃ h' r, scalarSub O s h a junk = .ok (h', r) ∧
      h'.Contains r (fun idx => O.sub (A idx) s)) ∧
    (∃ h' r, scalarDiv O s h a junk = .ok (h', r) ∧
      h'.Contains r (fun idx => O.mul (A idx) s)) ∧
    (∃ h' r, scalarGt O s h a junk = .ok (h', r) ∧
      h'.Contains r (fun idx => O.gt (A idx) s)) ∧
    (∃ h' r, scalarGe O s h a junk = .ok (h', r) ∧
      h'.Contains r (fun idx => O.ge (A idx) s)) ∧
    (∃ h' r, scalarLt O s h a junk = .ok (h', r) ∧
      h'.Contains r (fun idx => O.lt (A idx) s)) ∧
    (∃ h' r, scalarLe O s h a junk = .ok (h', r) ∧
      h'.Contains r (fun idx => O.le (A idx) s)) := by
  have key : ∀ op : V → V, ∃ h' r, scalarOp op h a junk = .ok (h', r) ∧
      h'.Contains r (fun idx => op (A idx)) := by
    intro op
    obtain ⟨h', r, e1, _, _, e3, _⟩ := C48_scalar_op op h a junk A hwf hA hla
    exact ⟨h', r, e1, e3⟩
  exact ⟨key _, key _, key _, key _, key _, key _⟩

/-- Integer arithmetic, for concrete examples. -/
def intScalarOps : ScalarOps Int where
  add := (· + ·)
  sub := (· - ·)
  mul := (· * ·)
  div := Int.tdiv
  gt := fun x y => if x > y then 1 else 0
  ge := fun x y => if x ≥ y then 1 else 0
  lt := fun x y => if x < y then 1 else 0
  le := fun x y => if x ≤ y then 1 else 0
  eq := fun x y => if x = y then 1 else 0
  and := fun x y => ((x.toNat &&& y.toNat : Nat) : Int)

/-- **Violation of C49.** For the array (0,1,2,3): `10 - a` at index 3 is -7 instead of 7, `12 / a`
at index 3 is 36 instead of 4, `2 > a` at index 3 is true and at index 0 false. -/
theorem C49_scalar_first_wrong :
    resultAt (scalarSub intScalarOps 10 (heap2 4 1) (dense 0 [4]) (fun _ => 0)) [3] = some (-7) ∧
    resultAt (scalarDiv intScalarOps 12 (heap2 4 1) (dense 0 [4]) (fun _ => 0)) [3] = some 36 ∧
    resultAt (scalarGt intScalarOps 2 (heap2 4 1) (dense 0 [4]) (fun _ => 0)) [3] = some 1 ∧
    resultAt (scalarGt intScalarOps 2 (heap2 4 1) (dense 0 [4]) (fun _ => 0)) [0] = some 0 := by
  decide +kernel

/-! ## C50: unary operations -/

/-- `copy`, `square`, `sqrt`, `abs` of any array or slice into a new array of the same shape. -/
theorem C50_unary_new (op : V → V) (h : Heap V) (a : Arr) (junk : Int → V) (A : List Int → V)
    (hwf : a.WF) (hA : h.Contains a A) (hla : a.blk < h.next) :
    ∃ h' r, unaryOp op h a junk = .ok (h', r) ∧ r.shape = a.shape ∧ r.blk = h.next ∧
      h'.Contains r (fun idx => op (A idx)) ∧ h.Frame h' := by
  obtain ⟨p1, p2, p3, p4, p5, p6, p7⟩ := alloc_props h a.shape junk (shape_nonneg hwf)
  obtain ⟨h', e1, e2, e3⟩ := unaryLoop_spec op (alloc h a.shape junk).1 (alloc h a.shape junk).2 a
    p1.symm p2 (Contains.frame hA hla p7) p4 p3 (fun e => by omega)
  obtain ⟨q1, q2, _⟩ := fresh_of_updated (h := h) p7 p5 p6 e2 e3
  refine ⟨h', (alloc h a.shape junk).2, ?_, p1, p5, q1, q2⟩
  unfold unaryOp
  simp only [e1, Outcome.bind_ok, Outcome.pure_eq]

/-- The same with a caller-supplied output of equal shape (in place when `out` is `a`): exactly the
elements of `out` change. Missing from C50: an output the input would have to be broadcast to. -/
theorem C50_unary_into_partial (op : V → V) (h : Heap V) (out a : Arr) (A : List Int → V)
    (hshape : a.shape = out.shape) (hwf : out.WF) (hA : h.Contains a A) (hm : h.Mapped out)
    (hd : out.Distinct) (hblk : a.blk ≠ out.blk ∨ a = out) :
    ∃ h', unaryLoop op h out a = .ok h' ∧ h.Updated h' out (fun idx => op (A idx)) := by
  obtain ⟨h', e1, e2, _⟩ := unaryLoop_spec op h out a hshape hwf hA hm hd (by
    intro e i j hi hj hne he
    rcases hblk with h1 | rfl
    · exact h1 e
    · exact hne (hd _ _ hi hj he))
  exact ⟨h', e1, e2⟩

example : resultAt (unaryOp (fun x => x * x) (heap2 6 1) (dense 0 [2, 3]) (fun _ => 0)) [1, 1] =
    some 16 := by decide +kernel

/-- **Violation of C50.** Broadcasting (1) into (3): the stride is not zeroed, so the kernel reads
past the one-element input. -/
theorem C50_broadcast_reads_past_end :
    isUb (unaryLoop id (heap2 3 1) (dense 0 [3]) (dense 1 [1])) = true := by decide +kernel

/-- **Violation of C50.** When the input is a one-element slice of a larger array, broadcasting it
copies its neighbours: from (100,101,102) the slice `0:1` into three elements stores 100,101,102. -/
theorem C50_broadcast_copies_neighbours :
    ∃ r, slice (dense 1 [3]) 0 0 1 1 = .ok r ∧ r.shape = [1] ∧
      heapAt (unaryLoop id (heap2 3 3) (dense 0 [3]) r) 0 2 = some 102 :=
  ⟨_, rfl, by decide, by decide +kernel⟩

/-! ## C51: squeeze and unsqueeze -/

/-- `squeeze(axis)` on a size-1 axis without offset removes that axis and keeps every element.
Missing from C51: slices whose squeezed axis carries an offset (`C51_squeeze_loses_offset`). -/
theorem C51_squeeze_partial (a : Arr) (axis : Nat) (d : Dim) (hd : a.dims[axis]? = some d)
    (h1 : d.size = 1) (h0 : d.offset = 0) :
    ∃ r, squeeze a axis = .ok r ∧ r.shape = a.shape.eraseIdx axis ∧
      ViewOf r a (fun idx => idx.insertIdx axis 0) := by
  have hlt : axis < a.dims.length := (List.getElem?_eq_some_iff.mp hd).1
  have hok : squeeze a axis = .ok { a with dims := a.dims.eraseIdx axis } := by
    unfold squeeze
    have e1 : ¬ ((axis : Int) < 0) := by omega
    simp only [e1, if_false]
    rw [if_neg (by omega)]
    simp [hd, h1]
  refine ⟨_, hok, ?_, rfl, ?_, ?_⟩
  · simp only [Arr.shape, List.eraseIdx_map]
  · intro idx hi; exact (erase_addr hd h1 hi).1
  · intro idx hi; have := (erase_addr hd h1 hi).2; simp only; omega

/-- An axis counted from the end means the same axis. -/
theorem C51_squeeze_negative (a : Arr) (axis : Nat) (h : axis < a.dims.length) :
    squeeze a (axis - a.dims.length : Int) = squeeze a axis := by
  unfold squeeze
  have e1 : (axis : Int) - a.dims.length < 0 := by omega
  have e2 : ¬ ((axis : Int) < 0) := by omega
  simp only [e1, e2, if_true, if_false]
  have : (a.dims.length : Int) + (axis - a.dims.length) = axis := by omega
  rw [this]
  simp only [e2, if_false]

/-- A size other than 1, or an axis out of range, is rejected. -/
theorem C51_squeeze_rejects (a : Arr) (axis : Int)
    (h : (axis < -a.dims.length ∨ a.dims.length ≤ axis) ∨
      ∃ d, 0 ≤ axis ∧ a.dims[axis.toNat]? = some d ∧ d.size ≠ 1) :
    squeeze a axis = .throws .runtimeError := by
  unfold squeeze
  rcases h with (h | h) | ⟨d, h0, hd, h1⟩
  · rw [if_pos (show axis < 0 by omega)]
    exact if_pos (by omega)
  · have e : ¬ axis < 0 := by omega
    simp only [e, if_false]
    rw [if_pos (by omega)]
  · have e : ¬ axis < 0 := by omega
    have := (List.getElem?_eq_some_iff.mp hd).1
    simp only [e, if_false]
    rw [if_neg (by omega)]
    simp [hd, h1]

/-- `unsqueeze(axis)` for `0 ≤ axis ≤ ndim` inserts a size-1 axis and keeps every element. -/
theorem C51_unsqueeze (a : Arr) (axis : Nat) (h : axis ≤ a.dims.length) :
    ∃ r, unsqueeze a axis = .ok r ∧ r.shape = a.shape.insertIdx axis 1 ∧
      ViewOf r a (fun idx => idx.eraseIdx axis) := by
  have hok : unsqueeze a axis = .ok { a with dims := a.dims.insertIdx axis ⟨1, 0, 0⟩ } := by
    unfold unsqueeze
    rw [if_pos (by omega)]; rfl
  refine ⟨_, hok, ?_, rfl, ?_, ?_⟩
  · simp only [Arr.shape, List.map_insertIdx]
  · intro idx hi; exact (insert_addr h hi).1
  · intro idx hi; exact ((insert_addr h hi).2).symm

/-- `squeeze` undoes `unsqueeze` at the same axis. -/
theorem C51_round_trip (a : Arr) (axis : Nat) (h : axis ≤ a.dims.length) :
    (unsqueeze a axis >>= fun r => squeeze r axis) = .ok a := by
  unfold unsqueeze
  rw [if_pos (by omega), Outcome.bind_ok]
  have hlen : (a.dims.insertIdx axis ⟨1, 0, 0⟩).length = a.dims.length + 1 :=
    List.length_insertIdx_of_le_length h _
  unfold squeeze
  have e1 : ¬ ((axis : Int) < 0) := by omega
  simp only [e1, if_false, Int.toNat_natCast, hlen]
  rw [if_neg (by omega)]
  simp [List.getElem?_insertIdx_self, h, List.eraseIdx_insertIdx_self]

example : ∃ r, squeeze (dense 0 [1, 3]) 0 = .ok r ∧ r.shape = [3] := ⟨_, rfl, by decide⟩

/-- **Violation of C51.** Squeezing row 1 of a 2×3 array gives row 0: the offset is dropped. -/
theorem C51_squeeze_loses_offset :
    ∃ row r, slice (dense 0 [2, 3]) 0 1 2 1 = .ok row ∧ squeeze row 0 = .ok r ∧
      (heap2 6 1).get row [0, 0] = some 3 ∧ (heap2 6 1).get r [0] = some 0 :=
  ⟨_, _, rfl, rfl, by decide, by decide⟩

/-- **Violation of C51.** `unsqueeze(-1)` reads past the shape vector. -/
theorem C51_unsqueeze_negative_ub (a : Arr) (axis : Int) (h : axis < 0) :
    unsqueeze a axis = .ub := by
  unfold unsqueeze; rw [if_neg (by omega)]

/-! ## C52: reshape -/

/-- Position of `idx` in row-major order (by C43, its lexicographic rank among the indices). -/
def rowMajor (shape idx : List Int) : Int := addr (denseDims shape).1 idx

/-- `r` shows the elements of `a` in row-major order. -/
def SameOrder (r a : Arr) : Prop :=
  ∀ i j, ValidIdx a.shape i → ValidIdx r.shape j → rowMajor a.shape i = rowMajor r.shape j →
    addr r.dims j = addr a.dims i

theorem reshapeStrides_append (acc : Int) (xs : List Int) (s : Int) :
    reshapeStrides [] acc (xs ++ [s]) = reshapeStrides [] acc xs ++ [xs.foldl (· * ·) acc] := by
  induction xs generalizing acc with
  | nil => rfl
  | cons x xs ih => simp [reshapeStrides, ih]

theorem reshapeStrides_dense (l : List Int) :
    (reshapeStrides [] 1 l.reverse).reverse = (denseDims l).1.map Dim.stride := by
  induction l with
  | nil => rfl
  | cons s ss ih =>
    rw [List.reverse_cons, reshapeStrides_append, List.reverse_append, ih]
    simp only [List.reverse_cons, List.reverse_nil, List.nil_append, List.cons_append, denseDims,
      List.map_cons]
    congr 1
    rw [denseDims_numel]
    have : ∀ (l : List Int) (x : Int), l.reverse.foldl (· * ·) x = l.foldl (· * ·) x := by
      intro l
      induction l with
      | nil => intro x; rfl
      | cons y l ih =>
        intro x
        rw [List.reverse_cons, List.foldl_append, ih]
        simp only [List.foldl_cons, List.foldl_nil]
        rw [foldl_mul_shift l x, foldl_mul_shift l (x * y)]; ring
    rw [this]

theorem zip_offsets (so : List (Int × Int)) (os : List Int) (h : so.length = os.length) :
    let ds := List.zipWith (fun (so : Int × Int) o => Dim.mk so.1 so.2 o) so os
    ds.map Dim.size = so.map Prod.fst ∧ ds.map Dim.stride = so.map Prod.snd ∧
      ds.map Dim.offset = os := by
  induction so generalizing os with
  | nil => cases os <;> simp_all
  | cons x so ih =>
    cases os with
    | nil => simp at h
    | cons o os =>
      obtain ⟨h1, h2, h3⟩ := ih os (by simpa using h)
      simp_all

/-- Every reshape that does not throw keeps the base and uses the computed strides. -/
theorem reshape_addr (a : Arr) (newShape strides : List Int) (hne : newShape ≠ [])
    (hn : newShape.foldl (· * ·) 1 = a.numel) (hl : newShape.length ≠ a.dims.length)
    (hst : (reshapeStrides (a.strides.drop 1).reverse 1 newShape.reverse).reverse = strides)
    (hsl : strides.length = newShape.length) :
    ∃ r, reshape a newShape = .ok r ∧ r.blk = a.blk ∧ r.shape = newShape ∧
      ∀ j, ValidIdx newShape j → addr r.dims j = a.base + sdot strides j := by
  have hl1 : (newShape.zip strides).length =
      (List.replicate (newShape.length - 1) 0 ++ [a.base]).length := by
    have : 0 < newShape.length := List.length_pos_iff.mpr hne
    simp; omega
  obtain ⟨z1, z2, z3⟩ := zip_offsets (newShape.zip strides)
    (List.replicate (newShape.length - 1) 0 ++ [a.base]) hl1
  have hok : reshape a newShape = .ok (Arr.mk a.blk (List.zipWith
      (fun (so : Int × Int) o => Dim.mk so.1 so.2 o) (newShape.zip strides)
      (List.replicate (newShape.length - 1) 0 ++ [a.base]))) := by
    unfold reshape
    rw [if_neg (by simp [hn]), if_neg hl, if_neg hne]
    simp only [hst]
  have hsh : (List.zipWith (fun (so : Int × Int) o => Dim.mk so.1 so.2 o) (newShape.zip strides)
      (List.replicate (newShape.length - 1) 0 ++ [a.base])).map Dim.size = newShape := by
    rw [z1, List.map_fst_zip (by omega)]
  refine ⟨_, hok, rfl, hsh, ?_⟩
  intro j hj
  have hlen := congrArg List.length hsh
  rw [List.length_map] at hlen
  rw [addr_eq _ _ (by rw [hj.length_eq]; exact hlen.symm), z2, z3,
    List.map_snd_zip (by omega), List.foldl_append]
  congr 1
  have : ∀ n : Nat, (List.replicate n (0 : Int)).foldl (· + ·) 0 = 0 := by
    intro n
    induction n with
    | zero => rfl
    | succ n ih => simpa [List.replicate_succ] using ih
  rw [this]
  simp

theorem dense_addr_sdot {shape idx : List Int} (h : ValidIdx shape idx) :
    sdot ((denseDims shape).1.map Dim.stride) idx = rowMajor shape idx := by
  unfold rowMajor
  have hlen := congrArg List.length (denseDims_shape shape)
  rw [List.length_map] at hlen
  rw [addr_eq _ _ (by rw [h.length_eq]; exact hlen.symm)]
  have : ∀ l : List Int, ((denseDims l).1.map Dim.offset).foldl (· + ·) 0 = 0 := by
    intro l
    induction l with
    | nil => rfl
    | cons s l ih => simpa [denseDims] using ih
  rw [this, zero_add]

/-- Reshaping a contiguous one-dimensional array (or contiguous 1-D slice) to any other rank keeps
the elements in row-major order. Missing from C52: sources of rank > 1 with a target of rank > 1,
and strided 1-D slices (`C52_reshape_wrong`). -/
theorem C52_reshape_from_1d_partial (a : Arr) (n off : Int) (newShape : List Int)
    (ha : a.dims = [⟨n, 1, off⟩]) (h2 : 2 ≤ newShape.length)
    (hn : newShape.foldl (· * ·) 1 = n) :
    ∃ r, reshape a newShape = .ok r ∧ r.blk = a.blk ∧ r.shape = newShape ∧ SameOrder r a := by
  obtain ⟨r, h1, h3, h4, h5⟩ := reshape_addr a newShape ((denseDims newShape).1.map Dim.stride)
    (by intro e; simp [e] at h2)
    (by simp [Arr.numel, Arr.shape, ha, hn]) (by simp [ha]; omega)
    (by simp only [Arr.strides, ha, List.map_cons, List.map_nil, List.drop_succ_cons,
          List.drop_zero, List.reverse_nil]; exact reshapeStrides_dense newShape)
    (by
      have := congrArg List.length (denseDims_shape newShape)
      simpa using this)
  refine ⟨r, h1, h3, h4, ?_⟩
  intro i j hi hj he
  rw [h4] at hj he
  rw [h5 j hj, dense_addr_sdot hj, ← he]
  simp only [Arr.shape, ha, List.map_cons, List.map_nil] at hi ⊢
  cases hi with
  | cons h hnil =>
    cases hnil
    simp [Arr.base, ha, rowMajor, denseDims, addr]

theorem dense_last_stride (s : Int) (ss : List Int) (hne : ss ≠ []) :
    ∃ pre, ((denseDims (s :: ss)).1.map Dim.stride).drop 1 = pre ++ [1] := by
  simp only [denseDims, List.map_cons, List.drop_succ_cons, List.drop_zero]
  clear s
  induction ss with
  | nil => exact absurd rfl hne
  | cons x ss ih =>
    cases ss with
    | nil => exact ⟨[], rfl⟩
    | cons y ss =>
      obtain ⟨pre, hp⟩ := ih (by simp)
      refine ⟨(denseDims (y :: ss)).2 :: pre, ?_⟩
      rw [denseDims]
      simp only [List.map_cons, List.cons_append]
      rw [← hp]

/-- Flattening a dense array (plus any offset, i.e. a contiguous view) of rank ≥ 2 keeps the
elements in row-major order. -/
theorem C52_flatten_dense_partial (a : Arr) (shape : List Int) (h2 : 2 ≤ shape.length)
    (hstr : a.strides = (denseDims shape).1.map Dim.stride) (hsh : a.shape = shape) :
    ∃ r, reshape a [a.numel] = .ok r ∧ r.blk = a.blk ∧ r.shape = [a.numel] ∧ SameOrder r a := by
  have hlen : a.dims.length = shape.length := by rw [← hsh, shape_length]
  obtain ⟨s, ss, rfl⟩ : ∃ s ss, shape = s :: ss := by
    cases shape with
    | nil => simp at h2
    | cons s ss => exact ⟨s, ss, rfl⟩
  have hss : ss ≠ [] := by intro e; simp [e] at h2
  obtain ⟨pre, hpre⟩ := dense_last_stride s ss hss
  obtain ⟨r, h1, h3, h4, h5⟩ := reshape_addr a [a.numel] [1] (by simp) (by simp)
    (by simp only [List.length_cons, List.length_nil]; omega)
    (by rw [hstr, hpre]; simp [reshapeStrides]) rfl
  refine ⟨r, h1, h3, h4, ?_⟩
  intro i j hi hj he
  rw [h4] at hj he
  rw [h5 j hj]
  have e1 : addr a.dims i = a.base + rowMajor (s :: ss) i := by
    rw [addr_eq _ _ (by rw [hi.length_eq, shape_length])]
    have : a.dims.map Dim.stride = a.strides := rfl
    rw [this, hstr, dense_addr_sdot (by rw [← hsh]; exact hi)]; rfl
  rw [e1, ← hsh, he]
  cases hj with
  | cons h hnil =>
    cases hnil
    simp [rowMajor, denseDims, addr, sdot]

/-- A reshape that changes the number of elements is rejected. -/
theorem C52_reshape_rejects (a : Arr) (newShape : List Int)
    (h : newShape.foldl (· * ·) 1 ≠ a.numel) : reshape a newShape = .throws .runtimeError := by
  unfold reshape; rw [if_pos h]

example : ∃ r, reshape (dense 0 [6]) [2, 3] = .ok r ∧ r.strides = [3, 1] := ⟨_, rfl, by decide⟩
example : ∃ r, reshape (dense 0 [2, 3]) [6] = .ok r ∧ r.strides = [1] := ⟨_, rfl, by decide⟩

/-- **Violation of C52.** (4,6) → (2,2,6) makes distinct elements share memory, and flattening is
not undone by it: element (0,1,0) of the result is element 1 of the data instead of element 6.
Reshaping a strided slice `0:6:2` of six elements to (1,3) shows elements 0,1,2 instead of 0,2,4. -/
theorem C52_reshape_wrong :
    (∃ r, reshape (dense 0 [4, 6]) [2, 2, 6] = .ok r ∧ addr r.dims [0, 1, 0] = 1 ∧
      addr r.dims [0, 0, 1] = 1 ∧ rowMajor [2, 2, 6] [0, 1, 0] = 6) ∧
    (∃ v r, slice (dense 0 [6]) 0 0 6 2 = .ok v ∧ reshape v [1, 3] = .ok r ∧
      addr v.dims [2] = 4 ∧ addr r.dims [0, 2] = 2) :=
  ⟨⟨_, rfl, by decide, by decide, by decide⟩, ⟨_, _, rfl, rfl, by decide, by decide⟩⟩

end Bliss.Nd
