import Verif.Misc.Move
import Verif.Misc.Elements

/-!
# Creating arrays with values (C130)

Models the constructor with an initial value (bland/bland/ndarray.cpp lines 150-163), `fill`
(bland/bland/ops/ops.cpp lines 265-278, bland/bland/ops/cpu/ops_cpu.cpp lines 90-93), `zeros`, `ones`,
`rand_normal` and `rand_uniform` (bland/bland/ops/creators.cpp lines 411-498), for host memory.
-/

namespace Bliss.Create

open Nd Move Elements
open Dispatch (DType Elem narrow)

variable {V : Type}

/-! ## Model -/

/-- `ndarray(shape, value, dtype, device)` (`ndarray.cpp:150-163`): memory, then `fill`
(`ops.cpp:265-278`, `ops_cpu.cpp:90-93`): page-locked memory is refused, then element types the
switch does not know; every element is assigned `static_cast<Out>(value)` (`assignment_op.hpp:28`).
Left out: memory of cuda devices. -/
def filled (R : Float.Rounding 24) (B : Build) (t : DType) (d : Device.Dev) (shape : List Int) (v : Num)
    (junk : Int → Num) (h : Heap Num) : Outcome (Heap Num × Arr) := do
  let (h1, a) ← allocOn B d h shape junk
  if d.kind ≠ .cpu then .throws .runtimeError
  else
    match narrow t with
    | none => .throws .runtimeError
    | some e =>
      -- without elements the cast is not executed
      if a.numel ≤ 0 then .ok (h1, a)
      else do
        let w ← conv R e v
        let h2 ← fill w h1 a
        pure (h2, a)

/-- `zeros` (`creators.cpp:411-413`). -/
def zeros (R : Float.Rounding 24) (B : Build) (t : DType) (d : Device.Dev) (shape : List Int)
    (junk : Int → Num) (h : Heap Num) : Outcome (Heap Num × Arr) := filled R B t d shape (.int 0) junk h

/-- `ones` (`creators.cpp:415-417`). -/
def ones (R : Float.Rounding 24) (B : Build) (t : DType) (d : Device.Dev) (shape : List Int)
    (junk : Int → Num) (h : Heap Num) : Outcome (Heap Num × Arr) := filled R B t d shape (.int 1) junk h

/-- `initialize_randn` (`creators.cpp:419-427`): the numbers drawn are stored one after the other. -/
def drawInto (draw : Nat → V) (n : Nat) (blk : Nat) (h : Heap V) : Outcome (Heap V) :=
  forLoop n (fun k h => h.store blk k (draw k)) h

/-- `rand_normal` (`creators.cpp:429-448`); `draw` are the numbers the generator gives. A loop over
memory of a cuda device is undefined on the host. -/
def randNormal (B : Build) (t : DType) (d : Device.Dev) (shape : List Int) (draw : Nat → V)
    (junk : Int → V) (h : Heap V) : Outcome (Heap V × Arr) := do
  let (h1, a) ← allocOn B d h shape junk
  if t.code ≠ .float then .throws .runtimeError
  else if t.bits = 32 ∨ t.bits = 64 then
    if d.kind = .cuda ∧ 0 < a.numel then .ub
    else do
      let h2 ← drawInto draw a.numel.toNat a.blk h1
      pure (h2, a)
  else .throws .runtimeError

/-- The types with a branch in `rand_uniform` (`creators.cpp:459-494`). -/
def hasUniform (t : DType) : Bool :=
  match t.code with
  | .float => t.bits = 32 || t.bits = 64
  | .int | .uint => t.bits = 8 || t.bits = 16 || t.bits = 32 || t.bits = 64
  | .other => false

/-- `rand_uniform` (`creators.cpp:455-498`): a type without a branch is left as it is. -/
def randUniform (B : Build) (t : DType) (d : Device.Dev) (shape : List Int) (draw : Nat → V)
    (junk : Int → V) (h : Heap V) : Outcome (Heap V × Arr) := do
  let (h1, a) ← allocOn B d h shape junk
  if hasUniform t then
    if d.kind = .cuda ∧ 0 < a.numel then .ub
    else do
      let h2 ← drawInto draw a.numel.toNat a.blk h1
      pure (h2, a)
  else .ok (h1, a)

/-! ## C130: every element of a new array has the value asked for -/

/-- The result is a new array of that shape in which element `idx` is `A idx`; everything that
existed before is unchanged. -/
structure New (h h' : Heap V) (a : Arr) (shape : List Int) (A : List Int → V) : Prop where
  shape_eq : a.shape = shape
  fresh : a.blk = h.next
  elements : h'.Contains a A
  untouched : h.Frame h'

/-- **C130 (a value).** On the host, for every known element type and every value that can be
converted to it, each element of the new array is that value. -/
theorem C130_filled (R : Float.Rounding 24) (B : Build) (t : DType) (e : Elem) (ht : narrow t = some e)
    (id : Int) (shape : List Int) (hs : ∀ s ∈ shape, 0 ≤ s) (v w : Num) (hv : conv R e v = .ok w)
    (junk : Int → Num) (h : Heap Num) :
    ∃ h' a, filled R B t ⟨.cpu, id⟩ shape v junk h = .ok (h', a) ∧ New h h' a shape (fun _ => w) := by
  obtain ⟨p1, p2, p3, p4, p5, p6, p7⟩ := alloc_props h shape junk hs
  unfold filled
  simp only [allocOn, true_or, if_true, Outcome.bind_ok, ht, ne_eq, not_true_eq_false, if_false, hv]
  by_cases hn : (alloc h shape junk).2.numel ≤ 0
  · rw [if_pos hn]
    refine ⟨_, _, rfl, p1, p5, fun idx hi => ?_, p7⟩
    rw [p1] at hi
    have := dense_bounds hi
    have hnum : (alloc h shape junk).2.numel = (denseDims shape).2 := by
      unfold Arr.numel; rw [p1, denseDims_numel]
    omega
  · rw [if_neg hn]
    obtain ⟨h', e1, e2, e3⟩ := fill_spec w (alloc h shape junk).1 (alloc h shape junk).2 p2 p4 p3
    obtain ⟨q1, q2, -⟩ := fresh_of_updated p7 p5 p6 e2 e3
    rw [e1]
    exact ⟨h', _, rfl, p1, p5, q1, q2⟩

theorem conv_small (R : Float.Rounding 24) (t : DType) (e : Elem) (ht : narrow t = some e) (n : ℤ)
    (h0 : 0 ≤ n) (h1 : n < 256) : ∃ w, conv R e (.int n) = .ok w ∧ w.val = n := by
  have hf : R.r n = n := R.int n (by rw [abs_of_nonneg h0]; omega)
  cases e with
  | f32 => exact ⟨_, rfl, hf⟩
  | i32 => exact ⟨_, rfl, by simp only [Num.val, wrap, lo, bits]; congr 1; omega⟩
  | i64 => exact ⟨_, rfl, by simp only [Num.val, wrap, lo, bits]; congr 1; omega⟩
  | u8 => exact ⟨_, rfl, by simp only [Num.val, wrap, lo, bits]; congr 1; omega⟩
  | u32 => exact ⟨_, rfl, by simp only [Num.val, wrap, lo, bits]; congr 1; omega⟩

/-- **C130 (zeros, ones).** Every element of `zeros` is 0 and every element of `ones` is 1. -/
theorem C130_zeros_ones (R : Float.Rounding 24) (B : Build) (t : DType) (e : Elem)
    (ht : narrow t = some e) (id : Int) (shape : List Int) (hs : ∀ s ∈ shape, 0 ≤ s)
    (junk : Int → Num) (h : Heap Num) :
    (∃ h' a w, zeros R B t ⟨.cpu, id⟩ shape junk h = .ok (h', a) ∧ New h h' a shape (fun _ => w) ∧
      w.val = 0) ∧
    ∃ h' a w, ones R B t ⟨.cpu, id⟩ shape junk h = .ok (h', a) ∧ New h h' a shape (fun _ => w) ∧
      w.val = 1 := by
  constructor
  · obtain ⟨w, h1, h2⟩ := conv_small R t e ht 0 (by omega) (by omega)
    obtain ⟨h', a, h3, h4⟩ := C130_filled R B t e ht id shape hs _ w h1 junk h
    exact ⟨h', a, w, h3, h4, by simpa using h2⟩
  · obtain ⟨w, h1, h2⟩ := conv_small R t e ht 1 (by omega) (by omega)
    obtain ⟨h', a, h3, h4⟩ := C130_filled R B t e ht id shape hs _ w h1 junk h
    exact ⟨h', a, w, h3, h4, by simpa using h2⟩

/-- **C130 fails for some types.** Although arrays of `int64`, `double` or 16-bit integers exist, none
can be created with a value: the constructor, `zeros` and `ones` throw. -/
theorem C130_type_refused (R : Float.Rounding 24) (B : Build) (t : DType) (id : Int) (shape : List Int)
    (v : Num) (junk : Int → Num) (h : Heap Num)
    (ht : (t.code = .float ∧ t.bits ≠ 32) ∨ (t.code = .int ∧ t.bits ≠ 32) ∨
      (t.code = .uint ∧ t.bits ≠ 8 ∧ t.bits ≠ 32) ∨ t.code = .other) :
    filled R B t ⟨.cpu, id⟩ shape v junk h = .throws .runtimeError := by
  have hn : narrow t = none := by
    obtain ⟨c, b, l⟩ := t
    unfold narrow
    cases c <;> simp at ht ⊢ <;> simp [ht]
  unfold filled
  simp [allocOn, hn]

/-- **C130 fails for page-locked memory.** It is allocated and then refused. -/
theorem C130_page_locked_refused (R : Float.Rounding 24) (B : Build) (t : DType) (id : Int)
    (shape : List Int) (v : Num) (junk : Int → Num) (h : Heap Num) :
    filled R B t ⟨.cudaHost, id⟩ shape v junk h = .throws .runtimeError := by
  unfold filled allocOn
  simp only [reduceCtorEq, false_or]
  split <;> rfl

/-- **C130 fails for values without a counterpart.** Filling an integer array that has elements with a
`float` out of its range is undefined. -/
theorem C130_value_undefined (R : Float.Rounding 24) (B : Build) (t : DType) (e : Elem)
    (ht : narrow t = some e) (he : e ≠ .f32) (id : Int) (shape : List Int) (hs : ∀ s ∈ shape, 1 ≤ s)
    (x : ℚ) (hx : trunc x < lo e ∨ hi e < trunc x) (junk : Int → Num) (h : Heap Num) :
    filled R B t ⟨.cpu, id⟩ shape (.flt x) junk h = .ub := by
  have hc : conv R e (.flt x) = .ub := by
    cases e <;> first | exact absurd rfl he | exact if_neg (by omega)
  obtain ⟨p1, -⟩ := alloc_props h shape junk (fun s hx => by have := hs s hx; omega)
  have hnum : 0 < (alloc h shape junk).2.numel := by
    unfold Arr.numel
    rw [p1, ← denseDims_numel]
    clear p1
    induction shape with
    | nil => simp [denseDims]
    | cons s ss ih =>
      simp only [denseDims]
      exact Int.mul_pos (ih (fun x hx => hs x (by simp [hx]))) (by have := hs s (by simp); omega)
  unfold filled
  simp only [allocOn, true_or, if_true, Outcome.bind_ok, ht, ne_eq, not_true_eq_false, if_false, hc]
  rw [if_neg (by omega)]
  rfl

/-! ## Random numbers -/

theorem drawInto_spec (draw : Nat → V) (h : Heap V) (blk n : Nat)
    (hm : ∀ k : Nat, k < n → h.mem blk k ≠ none) :
    ∃ h', drawInto draw n blk h = .ok h' ∧ h'.next = h.next ∧
      (∀ k : Nat, k < n → h'.mem blk k = some (draw k)) ∧
      (∀ b, b ≠ blk → h'.mem b = h.mem b) := by
  unfold drawInto
  have := forLoop_inv (n := n) (body := fun k (h : Heap V) => h.store blk k (draw k)) (s := h)
    (fun m h' => h'.next = h.next ∧ (∀ k : Nat, k < m → h'.mem blk k = some (draw k)) ∧
      (∀ k : Nat, k < n → h'.mem blk k ≠ none) ∧ ∀ b, b ≠ blk → h'.mem b = h.mem b)
    ⟨rfl, fun k hk => absurd hk (by omega), hm, fun _ _ => rfl⟩
    (by
      intro m s hmn ⟨i1, i2, i3, i4⟩
      have hx := i3 m hmn
      cases hv : s.mem blk m with
      | none => exact absurd hv hx
      | some v =>
        refine ⟨⟨fun b => if b = blk then fun i => if i = (m : Int) then some (draw m) else s.mem blk i
            else s.mem b, s.next⟩, ?_, i1, ?_, ?_, ?_⟩
        · simp [Heap.store, Buf.store, hv]
        · intro k hk
          by_cases hkm : k = m
          · subst hkm; simp
          · have : (k : Int) ≠ m := by omega
            simp [this, i2 k (by omega)]
        · intro k hk
          by_cases hkm : k = m
          · subst hkm; simp
          · have : (k : Int) ≠ m := by omega
            simp [this, i3 k hk]
        · intro b hb
          simp [hb, i4 b hb])
  obtain ⟨h', h1, h2, h3, -, h5⟩ := this
  exact ⟨h', h1, h2, h3, h5⟩

theorem drawn (draw : Nat → V) (h : Heap V) (shape : List Int) (hs : ∀ s ∈ shape, 0 ≤ s)
    (junk : Int → V) :
    ∃ h', drawInto draw (alloc h shape junk).2.numel.toNat (alloc h shape junk).2.blk
        (alloc h shape junk).1 = .ok h' ∧
      New h h' (alloc h shape junk).2 shape
        (fun idx => draw (Nd.addr (denseDims shape).1 idx).toNat) := by
  obtain ⟨p1, p2, p3, p4, p5, p6, p7⟩ := alloc_props h shape junk hs
  have hnum : (alloc h shape junk).2.numel = (denseDims shape).2 := by
    unfold Arr.numel; rw [p1, denseDims_numel]
  obtain ⟨h', h1, h2, h3, h4⟩ := drawInto_spec draw (alloc h shape junk).1
    (alloc h shape junk).2.blk (alloc h shape junk).2.numel.toNat (by
      intro k hk
      obtain ⟨idx, a1, a2⟩ := dense_surj hs k (by omega) (by omega)
      have := p4 idx (by rw [p1]; exact a1)
      unfold Heap.get at this
      rw [← a2]; exact this)
  refine ⟨h', h1, p1, p5, fun idx hi => ?_, fun b hb => ?_⟩
  · rw [p1] at hi
    obtain ⟨b1, b2⟩ := dense_bounds hi
    have := h3 (Nd.addr (denseDims shape).1 idx).toNat (by omega)
    rw [Int.toNat_of_nonneg b1] at this
    exact this
  · rw [h4 b (by rw [p5]; omega)]
    exact p7 b hb

/-- The widths for which random numbers of a kind exist. -/
def Known (t : DType) : Prop :=
  (t.code = .float ∧ t.bits ∈ [32, 64]) ∨
    ((t.code = .int ∨ t.code = .uint) ∧ t.bits ∈ [8, 16, 32, 64])

/-- **C130 (random numbers, partial).** In memory the host can write, every element of `rand_uniform`
is a number the generator drew, a different draw for each element; so each element is between the
bounds if the draws are. Missing: other types and cuda memory (`C130_uniform_uninitialised`,
`C130_random_device_undefined`). -/
theorem C130_uniform_partial (B : Build) (t : DType) (ht : Known t) (d : Device.Dev)
    (hd : d.kind = .cpu ∨ (d.kind ≠ .cuda ∧ B.cuda = true)) (shape : List Int)
    (hs : ∀ s ∈ shape, 0 ≤ s) (draw : Nat → V) (P : V → Prop) (hP : ∀ n, P (draw n))
    (junk : Int → V) (h : Heap V) :
    ∃ (h' : Heap V) (a : Arr) (pos : List Int → Nat), randUniform B t d shape draw junk h = .ok (h', a) ∧
      New h h' a shape (fun idx => draw (pos idx)) ∧
      (∀ i j, ValidIdx shape i → ValidIdx shape j → pos i = pos j → i = j) ∧
      ∀ idx, ValidIdx shape idx → ∃ x, h'.get a idx = some x ∧ P x := by
  obtain ⟨h', h1, h2⟩ := drawn draw h shape hs junk
  refine ⟨h', (alloc h shape junk).2, fun idx => (Nd.addr (denseDims shape).1 idx).toNat, ?_, h2, ?_, ?_⟩
  · unfold randUniform allocOn
    have hk : hasUniform t = true := by
      unfold hasUniform
      rcases ht with ⟨hc, hb⟩ | ⟨hc | hc, hb⟩ <;> rw [hc] <;> simpa [or_assoc] using hb
    rw [if_pos (by tauto)]
    simp only [Outcome.bind_ok]
    have hnc : ¬ (d.kind = .cuda ∧ 0 < (alloc h shape junk).2.numel) := by
      rintro ⟨hc, -⟩
      rcases hd with hd | hd
      · rw [hd] at hc; cases hc
      · exact hd.1 hc
    rw [if_pos hk, if_neg hnc, h1]
    rfl
  · intro i j hi hj he
    beta_reduce at he
    have a1 := dense_bounds hi
    have a2 := dense_bounds hj
    exact dense_inj hi hj (by omega)
  · intro idx hi
    exact ⟨_, h2.elements idx (by rw [h2.shape_eq]; exact hi), hP _⟩

/-- **C130 (random numbers, partial).** The same for `rand_normal` and the two floating point types. -/
theorem C130_normal_partial (B : Build) (t : DType) (ht : t.code = .float ∧ t.bits ∈ [32, 64])
    (d : Device.Dev) (hd : d.kind = .cpu ∨ (d.kind ≠ .cuda ∧ B.cuda = true)) (shape : List Int)
    (hs : ∀ s ∈ shape, 0 ≤ s) (draw : Nat → V) (junk : Int → V) (h : Heap V) :
    ∃ (h' : Heap V) (a : Arr) (pos : List Int → Nat), randNormal B t d shape draw junk h = .ok (h', a) ∧
      New h h' a shape (fun idx => draw (pos idx)) ∧
      ∀ i j, ValidIdx shape i → ValidIdx shape j → pos i = pos j → i = j := by
  obtain ⟨h', h1, h2⟩ := drawn draw h shape hs junk
  refine ⟨h', (alloc h shape junk).2, fun idx => (Nd.addr (denseDims shape).1 idx).toNat, ?_, h2, ?_⟩
  · unfold randNormal allocOn
    have hb : t.bits = 32 ∨ t.bits = 64 := by simpa using ht.2
    rw [if_pos (by tauto)]
    simp only [Outcome.bind_ok]
    have hnc : ¬ (d.kind = .cuda ∧ 0 < (alloc h shape junk).2.numel) := by
      rintro ⟨hc, -⟩
      rcases hd with hd | hd
      · rw [hd] at hc; cases hc
      · exact hd.1 hc
    rw [if_neg (by simp [ht.1]), if_pos hb, if_neg hnc, h1]
    rfl
  · intro i j hi hj he
    beta_reduce at he
    have a1 := dense_bounds hi
    have a2 := dense_bounds hj
    exact dense_inj hi hj (by omega)

/-- Types without a normal distribution are refused. -/
theorem C130_normal_refused (B : Build) (t : DType) (ht : ¬ (t.code = .float ∧ t.bits ∈ [32, 64]))
    (id : Int) (shape : List Int) (draw : Nat → V) (junk : Int → V) (h : Heap V) :
    randNormal B t ⟨.cpu, id⟩ shape draw junk h = .throws .runtimeError := by
  unfold randNormal allocOn
  simp only [true_or, if_true, Outcome.bind_ok]
  by_cases hc : t.code = .float
  · have : ¬ (t.bits = 32 ∨ t.bits = 64) := by simpa [hc] using ht
    simp [hc, this]
  · simp [hc]

/-- **C130 fails: uninitialised elements.** For any other type `rand_uniform` returns an array whose
elements are whatever the memory held. -/
theorem C130_uniform_uninitialised (B : Build) (t : DType) (ht : ¬ Known t) (id : Int)
    (shape : List Int) (hs : ∀ s ∈ shape, 0 ≤ s) (draw : Nat → V) (junk : Int → V) (h : Heap V) :
    ∃ h' a, randUniform B t ⟨.cpu, id⟩ shape draw junk h = .ok (h', a) ∧
      New h h' a shape (fun idx => junk (Nd.addr (denseDims shape).1 idx)) := by
  obtain ⟨p1, p2, p3, p4, p5, p6, p7⟩ := alloc_props h shape junk hs
  refine ⟨(alloc h shape junk).1, (alloc h shape junk).2, ?_, p1, p5, fun idx hi => ?_, p7⟩
  · unfold randUniform allocOn
    simp only [true_or, if_true, Outcome.bind_ok]
    rw [if_neg]
    intro hk
    apply ht
    unfold Known
    obtain ⟨c, b, l⟩ := t
    unfold hasUniform at hk
    cases c <;> simp at hk ⊢ <;> tauto
  · rw [p1] at hi
    obtain ⟨b1, b2⟩ := dense_bounds hi
    unfold Heap.get alloc
    simp only [if_true, Buf.ofFn]
    rw [if_pos ⟨b1, b2⟩]

/-- **C130 fails on cuda devices.** Drawing into memory of a device is undefined as soon as there is
an element. -/
theorem C130_random_device_undefined (B : Build) (hB : B.cuda = true) (t : DType)
    (ht : t.code = .float ∧ t.bits ∈ [32, 64]) (id : Int) (shape : List Int)
    (hn : 0 < shape.foldl (· * ·) 1) (draw : Nat → V) (junk : Int → V) (h : Heap V) :
    randNormal B t ⟨.cuda, id⟩ shape draw junk h = .ub ∧
      randUniform B t ⟨.cuda, id⟩ shape draw junk h = .ub := by
  have hb : t.bits = 32 ∨ t.bits = 64 := by simpa using ht.2
  have hnum : 0 < (alloc h shape junk).2.numel := by
    unfold Arr.numel
    have : (alloc h shape junk).2.shape = shape := denseDims_shape shape
    rw [this]; exact hn
  constructor
  · unfold randNormal allocOn
    simp [hB, ht.1, hb, hnum]
  · unfold randUniform allocOn
    have : hasUniform t = true := by
      unfold hasUniform; rw [ht.1]; simpa using hb
    simp [hB, this, hnum]

/-! ## Concrete cases -/

/-- Six ones. -/
example : ∃ h' a w, ones (Float.nearestEven 24 (by norm_num)) ⟨false, fun _ => false⟩ ⟨.uint, 8, 1⟩ ⟨.cpu, 0⟩ [2, 3]
      (fun _ => .int 7) ⟨fun _ _ => none, 0⟩ = .ok (h', a) ∧ h'.get a [1, 2] = some w ∧ w.val = 1 := by
  obtain ⟨-, h', a, w, h1, h2, h3⟩ := C130_zeros_ones (Float.nearestEven 24 (by norm_num)) ⟨false, fun _ => false⟩ ⟨.uint, 8, 1⟩ .u8
    rfl 0 [2, 3] (by decide) (fun _ => .int 7) ⟨fun _ _ => none, 0⟩
  exact ⟨h', a, w, h1, h2.elements [1, 2] (by
    rw [h2.shape_eq]; exact .cons (by omega) (.cons (by omega) .nil)), h3⟩

example : Known ⟨.float, 32, 1⟩ ∧ ¬ Known ⟨.float, 16, 1⟩ := by unfold Known; decide

end Bliss.Create
