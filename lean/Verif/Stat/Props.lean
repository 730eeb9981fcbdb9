import Verif.Stat.Core
import Mathlib.Algebra.Order.Field.Rat
import Mathlib.Algebra.BigOperators.Group.List.Basic
import Mathlib.Data.List.Perm.Subperm
import Mathlib.Tactic.FieldSimp
import Mathlib.Tactic.Linarith
import Mathlib.Tactic.Positivity

/-!
# Reductions: sum, mean, standard deviation, maximum, and their masked versions (C53, C54, C74)
-/

namespace Bliss.Stat

open Bliss.Nd

variable {V A D : Type}

theorem plain_visit {a : Arr} {h : Heap V} {X : List Int → V} (hX : h.Contains a X)
    (hb : a.blk < h.next) (f : A → V → A) :
    ∀ h', h.Frame h' → ∀ j, ValidIdx a.shape j → ∀ acc,
      plainVisit a f h' acc (addr a.dims j) = .ok (f acc (X j)) := by
  intro h' hf j hj acc
  have := hX j hj
  simp only [Heap.get] at this
  rw [← hf _ hb] at this
  simp only [plainVisit, Heap.load, Buf.load_some this, Outcome.bind_ok, Outcome.pure_eq]

theorem masked_visit {a mask : Arr} {h : Heap V} {hm : Heap UInt8} {X : List Int → V}
    {M : List Int → UInt8} (hX : h.Contains a X) (hM : hm.Contains mask M)
    (hshape : a.shape = mask.shape)
    (hlay : ∀ j, ValidIdx a.shape j → addr mask.dims j = addr a.dims j)
    (hb : a.blk < h.next) (f : A → V → A) :
    ∀ h', h.Frame h' → ∀ j, ValidIdx a.shape j → ∀ acc,
      maskedVisit a mask hm f h' acc (addr a.dims j) =
        .ok (if M j = 0 then f acc (X j) else acc) := by
  intro h' hf j hj acc
  have h1 := hX j hj
  have h2 := hM j (by rw [← hshape]; exact hj)
  simp only [Heap.get] at h1 h2
  rw [hlay j hj] at h2
  rw [← hf _ hb] at h1
  simp only [maskedVisit, Heap.load, Buf.load_some h2, Outcome.bind_ok]
  split
  · simp only [Buf.load_some h1, Outcome.bind_ok, Outcome.pure_eq]
  · rfl

/-! ## C53: sum, mean, standard deviation and maximum -/

/-- **C53 (sum)**. `sum` over any set of axes returns a new array whose shape is the shape of the
input without these axes; each element is the sum, in the type of the data, of exactly the input
elements with that remaining index, each once; nothing outside the view is read (that would be
undefined behaviour) and no existing array changes. -/
theorem C53_sum (o : StatOps V D) (a : Arr) (axes : List Int) (junk : Int → V) (h : Heap V)
    (X : List Int → V) (hax : GoodAxes a axes) (hwf : a.WF) (hX : h.Contains a X)
    (hb : a.blk < h.next) :
    Returns h (sum o a axes junk h) (orUnit 1 (remaining axes a.shape))
      (fun i => (order a.shape axes i).foldl (fun acc j => o.addV acc (X j)) o.zeroV) ∧
    ∀ i, ValidIdx (orUnit 1 (remaining axes a.shape)) i →
      Enumerates a.shape axes i (order a.shape axes i) :=
  ⟨reduceNew_spec hax hwf _ _ _ junk h _ (plain_visit hX hb _) _ (fun _ _ => rfl),
   fun _ hi => order_enumerates hax hi⟩

/-- **C53 (mean)**. As `C53_sum`, accumulated in `double` and divided by the number of elements. -/
theorem C53_mean (o : StatOps V D) (a : Arr) (axes : List Int) (junk : Int → V) (h : Heap V)
    (X : List Int → V) (hax : GoodAxes a axes) (hwf : a.WF) (hX : h.Contains a X)
    (hb : a.blk < h.next) :
    Returns h (mean o a axes junk h) (orUnit 1 (remaining axes a.shape))
      (fun i => o.toV (o.div
        ((order a.shape axes i).foldl (fun acc j => o.add acc (o.toD (X j))) o.zero)
        (o.ofInt (order a.shape axes i).length))) ∧
    ∀ i, ValidIdx (orUnit 1 (remaining axes a.shape)) i →
      Enumerates a.shape axes i (order a.shape axes i) := by
  refine ⟨reduceNew_spec hax hwf _ _ _ junk h _ (plain_visit hX hb _) _ (fun i _ => ?_),
    fun _ hi => order_enumerates hax hi⟩
  rw [order_length, shape_length, ← count_cells axes hwf, count, redAxes_eq]
  have : 0 ≤ reducedCount a (redAxes a.dims.length axes) := by
    unfold reducedCount
    generalize redAxes a.dims.length axes = ds
    induction ds with
    | nil => simp
    | cons d ds ih =>
      simp only [List.map_cons, List.foldl_cons]
      rw [foldl_mul_shift]
      refine Int.mul_nonneg ?_ ih
      simp only [one_mul, List.getD]
      cases hs : a.shape[d]? with
      | none => simp
      | some s => exact shape_nonneg hwf s (List.mem_of_getElem? hs)
  rw [Int.toNat_of_nonneg this]

theorem count_eq {a : Arr} (axes : List Int) (hwf : a.WF) (i : List Int) :
    count a axes = (order a.shape axes i).length := by
  have : 0 ≤ reducedCount a (redAxes a.dims.length axes) := by
    unfold reducedCount
    generalize redAxes a.dims.length axes = ds
    induction ds with
    | nil => simp
    | cons d ds ih =>
      simp only [List.map_cons, List.foldl_cons]
      rw [foldl_mul_shift]
      refine Int.mul_nonneg ?_ ih
      simp only [one_mul, List.getD]
      cases hs : a.shape[d]? with
      | none => simp
      | some s => exact shape_nonneg hwf s (List.mem_of_getElem? hs)
  rw [order_length, shape_length, ← count_cells axes hwf, count, redAxes_eq,
    Int.toNat_of_nonneg this]

/-- **C53 (standard deviation)**. As `C53_sum`, from the accumulated Σ x/n and Σ x²/n. -/
theorem C53_stddev (o : StatOps V D) (a : Arr) (axes : List Int) (junk : Int → V) (h : Heap V)
    (X : List Int → V) (hax : GoodAxes a axes) (hwf : a.WF) (hX : h.Contains a X)
    (hb : a.blk < h.next) :
    Returns h (stddev o a axes junk h) (orUnit 1 (remaining axes a.shape))
      (fun i => devFinish o ((order a.shape axes i).foldl
        (fun acc j => devStep o (order a.shape axes i).length acc (X j)) (o.zero, o.zero))) ∧
    ∀ i, ValidIdx (orUnit 1 (remaining axes a.shape)) i →
      Enumerates a.shape axes i (order a.shape axes i) := by
  refine ⟨reduceNew_spec hax hwf _ _ _ junk h _ (plain_visit hX hb _) _ (fun i _ => ?_),
    fun _ hi => order_enumerates hax hi⟩
  rw [count_eq axes hwf i]

/-- **C53 (mean and standard deviation in one call)** agree with the separate calls, up to the
mean being accumulated as Σ x/n. -/
theorem C53_mean_stddev (o : StatOps V D) (a : Arr) (axes : List Int) (junk1 junk2 : Int → V)
    (h : Heap V) (X : List Int → V) (hax : GoodAxes a axes) (hwf : a.WF) (hX : h.Contains a X)
    (hb : a.blk < h.next) :
    Returns2 h (meanStddev o a axes junk1 junk2 h) (orUnit 1 (remaining axes a.shape))
      (fun i => o.toV ((order a.shape axes i).foldl
        (fun acc j => devStep o (order a.shape axes i).length acc (X j)) (o.zero, o.zero)).1)
      (fun i => devFinish o ((order a.shape axes i).foldl
        (fun acc j => devStep o (order a.shape axes i).length acc (X j)) (o.zero, o.zero))) := by
  refine reduceNew2_spec hax hwf _ _ _ junk1 junk2 h _ (plain_visit hX hb _) _ _ (fun i _ => ?_)
  rw [count_eq axes hwf i]

/-- **C53 (maximum)**. When `>` is a linear order and `lowest` its least element, every element of
the result is the largest of its input elements (`lowest` when there are none). -/
theorem C53_max [LinearOrder V] (o : StatOps V D) (hgt : ∀ x y, o.gtV x y = decide (y < x))
    (hlow : ∀ x, o.lowest ≤ x) (a : Arr) (axes : List Int) (junk : Int → V) (h : Heap V)
    (X : List Int → V) (hax : GoodAxes a axes) (hwf : a.WF) (hX : h.Contains a X)
    (hb : a.blk < h.next) :
    ∃ R : List Int → V,
      Returns h (max o a axes junk h) (orUnit 1 (remaining axes a.shape)) R ∧
      ∀ i, ValidIdx (orUnit 1 (remaining axes a.shape)) i →
        (∀ j, ValidIdx a.shape j → orUnit 0 (remaining axes j) = i → X j ≤ R i) ∧
        (R i = o.lowest ∨
          ∃ j, ValidIdx a.shape j ∧ orUnit 0 (remaining axes j) = i ∧ R i = X j) := by
  refine ⟨_, reduceNew_spec hax hwf _ _ _ junk h _ (plain_visit hX hb _)
    (fun i => (order a.shape axes i).foldl (fun acc j => maxStep o acc (X j)) o.lowest)
    (fun _ _ => rfl), fun i hi => ?_⟩
  have key : ∀ (l : List (List Int)) (m : V),
      m ≤ l.foldl (fun acc j => maxStep o acc (X j)) m ∧
      (∀ j ∈ l, X j ≤ l.foldl (fun acc j => maxStep o acc (X j)) m) ∧
      (l.foldl (fun acc j => maxStep o acc (X j)) m = m ∨
        ∃ j ∈ l, l.foldl (fun acc j => maxStep o acc (X j)) m = X j) := by
    intro l
    induction l with
    | nil => intro m; simp
    | cons k l ih =>
      intro m
      obtain ⟨h1, h2, h3⟩ := ih (maxStep o m (X k))
      have hm : m ≤ maxStep o m (X k) ∧ X k ≤ maxStep o m (X k) ∧
          (maxStep o m (X k) = m ∨ maxStep o m (X k) = X k) := by
        simp only [maxStep, hgt]
        by_cases hc : m < X k
        · simp [hc, le_of_lt hc]
        · simp [hc, not_lt.mp hc]
      simp only [List.foldl_cons]
      refine ⟨le_trans hm.1 h1, ?_, ?_⟩
      · intro j hj
        rcases List.mem_cons.mp hj with rfl | hj
        · exact le_trans hm.2.1 h1
        · exact h2 j hj
      · rcases h3 with h3 | ⟨j, hj, h3⟩
        · rcases hm.2.2 with h4 | h4
          · left; rw [h3, h4]
          · right; exact ⟨k, by simp, by rw [h3, h4]⟩
        · right; exact ⟨j, by simp [hj], h3⟩
  obtain ⟨h1, h2, h3⟩ := key (order a.shape axes i) o.lowest
  have hE := order_enumerates hax hi
  refine ⟨fun j hj he => h2 j ((hE.2 j).mpr ⟨hj, he⟩), ?_⟩
  rcases h3 with h3 | ⟨j, hj, h3⟩
  · left; exact h3
  · right
    obtain ⟨v1, v2⟩ := (hE.2 j).mp hj
    exact ⟨j, v1, v2, h3⟩

/-! ### In exact arithmetic -/

/-- Exact arithmetic on rational numbers, with some square root function. -/
def ratOps (sqrt : ℚ → ℚ) : StatOps ℚ ℚ where
  toD := id
  toV := id
  zero := 0
  add := (· + ·)
  sub := (· - ·)
  mul := (· * ·)
  div := (· / ·)
  ofInt := fun n => n
  sqrt := sqrt
  clip := fun x => if x < 0 then 0 else x
  zeroV := 0
  addV := (· + ·)
  gtV := fun x y => decide (y < x)
  lowest := -(2 ^ 128)

theorem foldl_add_sum {α : Type} (f : α → ℚ) (l : List α) (x : ℚ) :
    l.foldl (fun acc j => acc + f j) x = x + (l.map f).sum := by
  induction l generalizing x with
  | nil => simp
  | cons a l ih => simp only [List.foldl_cons, ih, List.map_cons, List.sum_cons]; ring

theorem enumerates_perm {shape axes o : List Int} {l m : List (List Int)}
    (hl : Enumerates shape axes o l) (hm : Enumerates shape axes o m) : l.Perm m := by
  rw [List.perm_ext_iff_of_nodup hl.1 hm.1]
  intro j
  rw [hl.2, hm.2]

/-- **C53 (exact mean)**. In exact arithmetic, element `i` of the result is the arithmetic mean of
the input elements with remaining index `i`, whatever the order they are listed in. -/
theorem C53_exact_mean (sqrt : ℚ → ℚ) (a : Arr) (axes : List Int) (junk : Int → ℚ) (h : Heap ℚ)
    (X : List Int → ℚ) (hax : GoodAxes a axes) (hwf : a.WF) (hX : h.Contains a X)
    (hb : a.blk < h.next) :
    ∃ R : List Int → ℚ,
      Returns h (mean (ratOps sqrt) a axes junk h) (orUnit 1 (remaining axes a.shape)) R ∧
      ∀ i, ValidIdx (orUnit 1 (remaining axes a.shape)) i → ∀ l, Enumerates a.shape axes i l →
        R i = (l.map X).sum / l.length := by
  obtain ⟨h1, h2⟩ := C53_mean (ratOps sqrt) a axes junk h X hax hwf hX hb
  refine ⟨_, h1, fun i hi l hl => ?_⟩
  have hp := enumerates_perm (h2 i hi) hl
  have e := foldl_add_sum X (order a.shape axes i) 0
  rw [zero_add] at e
  simp only [ratOps, id]
  rw [e, (hp.map X).sum_eq, hp.length_eq]
  simp

theorem dev_foldl (sqrt : ℚ → ℚ) (X : List Int → ℚ) (n : Int) (l : List (List Int)) (p : ℚ × ℚ) :
    l.foldl (fun acc j => devStep (ratOps sqrt) n acc (X j)) p =
      (p.1 + (l.map X).sum / n, p.2 + (l.map (fun j => X j ^ 2)).sum / n) := by
  induction l generalizing p with
  | nil => simp
  | cons a l ih =>
    simp only [List.foldl_cons, ih, List.map_cons, List.sum_cons, Prod.mk.injEq]
    simp only [devStep, ratOps, id]
    constructor
    · simp only [Int.cast_one, div_eq_mul_inv, one_mul]; ring
    · simp only [Int.cast_one, div_eq_mul_inv, one_mul]; ring

theorem sum_sq_dev (X : List Int → ℚ) (c : ℚ) (l : List (List Int)) :
    (l.map (fun j => (X j - c) ^ 2)).sum =
      (l.map (fun j => X j ^ 2)).sum - 2 * c * (l.map X).sum + l.length * c ^ 2 := by
  induction l with
  | nil => simp
  | cons a l ih =>
    simp only [List.map_cons, List.sum_cons, ih, List.length_cons]
    push_cast
    ring

theorem sum_sq_nonneg (X : List Int → ℚ) (c : ℚ) (l : List (List Int)) :
    0 ≤ (l.map (fun j => (X j - c) ^ 2)).sum := by
  induction l with
  | nil => simp
  | cons a l ih =>
    simp only [List.map_cons, List.sum_cons]
    have := sq_nonneg (X a - c)
    linarith

/-- **C53 (exact standard deviation)**. In exact arithmetic the result is the square root of the
population variance of the input elements with that remaining index, and the guard against a
negative variance never changes it. -/
theorem C53_exact_stddev (sqrt : ℚ → ℚ) (a : Arr) (axes : List Int) (junk : Int → ℚ) (h : Heap ℚ)
    (X : List Int → ℚ) (hax : GoodAxes a axes) (hwf : a.WF) (hX : h.Contains a X)
    (hb : a.blk < h.next) :
    ∃ R : List Int → ℚ,
      Returns h (stddev (ratOps sqrt) a axes junk h) (orUnit 1 (remaining axes a.shape)) R ∧
      ∀ i, ValidIdx (orUnit 1 (remaining axes a.shape)) i → ∀ l, Enumerates a.shape axes i l →
        l ≠ [] →
        R i = sqrt ((l.map (fun j => (X j - (l.map X).sum / l.length) ^ 2)).sum / l.length) := by
  obtain ⟨h1, h2⟩ := C53_stddev (ratOps sqrt) a axes junk h X hax hwf hX hb
  refine ⟨_, h1, fun i hi l hl hne => ?_⟩
  have hp := enumerates_perm (h2 i hi) hl
  have hlen : (0 : ℚ) < l.length := by
    have := List.length_pos_of_ne_nil hne
    exact_mod_cast this
  have e : ∀ s2 s1 : ℚ, s2 / l.length - (s1 / l.length) * (s1 / l.length) =
      (s2 - 2 * (s1 / l.length) * s1 + l.length * (s1 / l.length) ^ 2) / l.length := by
    intro s2 s1
    field_simp
    ring
  have e' := e (l.map (fun j => X j ^ 2)).sum (l.map X).sum
  rw [← sum_sq_dev] at e'
  simp only [dev_foldl, devFinish]
  rw [(hp.map X).sum_eq, (hp.map (fun j => X j ^ 2)).sum_eq, hp.length_eq]
  simp only [ratOps, zero_add, id, Int.cast_natCast]
  rw [e', if_neg]
  have := div_nonneg (sum_sq_nonneg X ((l.map X).sum / l.length) l) hlen.le
  exact not_lt.mpr this

/-! ### Outside the contract -/

/-- **C53 (axes the array does not have)**. A negative axis (for instance `-1` for "last") or one
past the end is undefined behaviour in every reduction: the axes are not checked. -/
theorem C53_axis_out_of_range_ub (a : Arr) (axes : List Int) (visit : Heap V → A → Int → Outcome A)
    (finish : A → Outcome V) (init : A) (junk : Int → V) (h : Heap V) (d : Int) (hd : d ∈ axes)
    (hbad : d < 0 ∨ (a.dims.length : Int) ≤ d) :
    reduceNew a axes visit finish init junk h = .ub := by
  have hne : axes ≠ [] := by intro e; subst e; simp at hd
  have hany : (allAxes a axes).any (fun d => decide (d < 0 ∨ (a.dims.length : Int) ≤ d)) = true := by
    rw [allAxes, if_neg hne, List.any_eq_true]
    exact ⟨d, hd, by simpa using hbad⟩
  simp only [reduceNew, reduceInto, hany, if_true]
  rfl

/-- A heap with one block. -/
def heap1 (l : List ℚ) : Heap ℚ := ⟨fun b => if b = 0 then fun i => if i < 0 then none else l[i.toNat]? else fun _ => none, 1⟩

/-- 2×3 array. -/
def arr23 : Arr := ⟨0, [⟨2, 3, 0⟩, ⟨3, 1, 0⟩]⟩

/-- **C53 (an axis named twice)**. An axis listed twice counts elements more than once: the sum of
`[1, 2]` over `{0, 0}` is 7 and not 3 or an error. -/
theorem C53_duplicate_axes :
    resultAt (sum (ratOps id) ⟨0, [⟨2, 1, 0⟩]⟩ [0, 0] (fun _ => 0) (heap1 [1, 2])) [0] = some 7 := by
  decide +kernel

-- a 2×3 array: sums over rows, columns, everything; a mean over a strided, reversed view
example : GoodAxes arr23 [1] ∧ GoodAxes arr23 [] ∧ arr23.WF := by
  refine ⟨⟨by decide, by decide⟩, ⟨by decide, by decide⟩, ?_⟩
  intro d hd
  simp [arr23] at hd
  rcases hd with rfl | rfl <;> decide
example : resultAt (sum (ratOps id) arr23 [1] (fun _ => 0) (heap1 [1, 2, 3, 4, 5, 6])) [1] = some 15 := by
  decide +kernel
example : resultAt (sum (ratOps id) arr23 [0] (fun _ => 0) (heap1 [1, 2, 3, 4, 5, 6])) [2] = some 9 := by
  decide +kernel
example : resultAt (mean (ratOps id) arr23 [] (fun _ => 0) (heap1 [1, 2, 3, 4, 5, 6])) [0] = some (7/2) := by
  decide +kernel
example : resultAt (stddev (ratOps id) arr23 [1] (fun _ => 0) (heap1 [1, 2, 3, 4, 5, 9])) [1] = some (14/3) := by
  decide +kernel
example : resultAt (max (ratOps id) ⟨0, [⟨2, -3, 5⟩, ⟨2, 2, -2⟩]⟩ [1] (fun _ => 0)
    (heap1 [1, 2, 3, 4, 5, 6])) [0] = some 6 := by
  decide +kernel

/-! ## C54: masked mean and standard deviation -/

theorem foldl_mask {α β : Type} (f : β → α → β) (m : α → UInt8) (l : List α) (b : β) :
    l.foldl (fun acc j => if m j = 0 then f acc j else acc) b =
      (l.filter (fun j => m j = 0)).foldl f b := by
  induction l generalizing b with
  | nil => rfl
  | cons a l ih =>
    by_cases h : m a = 0
    · simp [List.filter_cons, h, ih]
    · simp [List.filter_cons, h, ih]

theorem mean_count (o : StatOps V D) (X : List Int → V) (l : List (List Int)) (p : D × Int) :
    (l.foldl (fun acc j => (o.add acc.1 (o.toD (X j)), acc.2 + 1)) p) =
      (l.foldl (fun acc j => o.add acc (o.toD (X j))) p.1, p.2 + l.length) := by
  induction l generalizing p with
  | nil => simp
  | cons a l ih =>
    simp only [List.foldl_cons, ih, List.length_cons, Prod.mk.injEq, true_and]
    push_cast
    ring

theorem mdev_count (o : StatOps V D) (X : List Int → V) (l : List (List Int)) (p : D × D × Int) :
    (l.foldl (fun acc j => mdevStep o acc (X j)) p).2.2 = p.2.2 + l.length := by
  induction l generalizing p with
  | nil => simp
  | cons a l ih =>
    simp only [List.foldl_cons, ih, List.length_cons]
    simp only [mdevStep]
    push_cast
    ring

/-- The unmasked elements of a result, in the order they are combined. -/
def unmasked (shape axes : List Int) (M : List Int → UInt8) (i : List Int) : List (List Int) :=
  (order shape axes i).filter (fun j => M j = 0)

/-- `unmasked` lists exactly the elements with that remaining index whose mask is zero. -/
theorem unmasked_mem {a : Arr} {axes i : List Int} (hax : GoodAxes a axes)
    (hi : ValidIdx (orUnit 1 (remaining axes a.shape)) i) (M : List Int → UInt8) :
    (unmasked a.shape axes M i).Nodup ∧ ∀ j, j ∈ unmasked a.shape axes M i ↔
      ValidIdx a.shape j ∧ orUnit 0 (remaining axes j) = i ∧ M j = 0 := by
  have hE := order_enumerates hax hi
  refine ⟨hE.1.filter _, fun j => ?_⟩
  simp only [unmasked, List.mem_filter, hE.2, decide_eq_true_eq, and_assoc]

/-- **C54 (masked mean)**. With a mask that has the same memory layout as the data, every result is
the mean of exactly the elements whose mask is zero — provided each result has one.
Full property: for every mask view of the same shape; missing, because the mask is read with the
data's offsets and strides (`C54_mask_layout_wrong`, `C54_mask_layout_ub`). -/
theorem C54_masked_mean_partial (o : StatOps V D) (a mask : Arr) (hm : Heap UInt8) (axes : List Int)
    (junk : Int → V) (h : Heap V) (X : List Int → V) (M : List Int → UInt8) (hax : GoodAxes a axes)
    (hwf : a.WF) (hX : h.Contains a X) (hM : hm.Contains mask M) (hshape : a.shape = mask.shape)
    (hlay : ∀ j, ValidIdx a.shape j → addr mask.dims j = addr a.dims j) (hb : a.blk < h.next)
    (hsome : ∀ i, ValidIdx (orUnit 1 (remaining axes a.shape)) i →
      ∃ j, ValidIdx a.shape j ∧ orUnit 0 (remaining axes j) = i ∧ M j = 0) :
    Returns h (maskedMean o a mask hm axes junk h) (orUnit 1 (remaining axes a.shape))
      (fun i => o.toV (o.div
        ((unmasked a.shape axes M i).foldl (fun acc j => o.add acc (o.toD (X j))) o.zero)
        (o.ofInt (unmasked a.shape axes M i).length))) := by
  unfold maskedMean
  rw [if_pos hshape]
  refine reduceNew_spec hax hwf _ _ _ junk h _ (masked_visit hX hM hshape hlay hb _) _ (fun i hi => ?_)
  rw [foldl_mask (fun (acc : D × Int) j => (o.add acc.1 (o.toD (X j)), acc.2 + 1)) M, mean_count]
  obtain ⟨j, hj⟩ := hsome i hi
  have hmem := ((unmasked_mem hax hi M).2 j).mpr hj
  have hpos := List.length_pos_of_mem hmem
  unfold unmasked at hpos
  simp only [zero_add]
  rw [if_neg (by omega)]
  rfl

/-- **C54 (masked standard deviation)**, with the same restriction. -/
theorem C54_masked_stddev_partial (o : StatOps V D) (a mask : Arr) (hm : Heap UInt8)
    (axes : List Int) (junk : Int → V) (h : Heap V) (X : List Int → V) (M : List Int → UInt8)
    (hax : GoodAxes a axes) (hwf : a.WF) (hX : h.Contains a X) (hM : hm.Contains mask M)
    (hshape : a.shape = mask.shape)
    (hlay : ∀ j, ValidIdx a.shape j → addr mask.dims j = addr a.dims j) (hb : a.blk < h.next)
    (hsome : ∀ i, ValidIdx (orUnit 1 (remaining axes a.shape)) i →
      ∃ j, ValidIdx a.shape j ∧ orUnit 0 (remaining axes j) = i ∧ M j = 0) :
    Returns h (maskedStddev o a mask hm axes junk h) (orUnit 1 (remaining axes a.shape))
      (fun i => mdevFinish o ((unmasked a.shape axes M i).foldl
        (fun acc j => mdevStep o acc (X j)) (o.zero, o.zero, 0))) := by
  unfold maskedStddev
  rw [if_pos hshape]
  refine reduceNew_spec hax hwf _ _ _ junk h _ (masked_visit hX hM hshape hlay hb _) _ (fun i hi => ?_)
  rw [foldl_mask (fun (acc : D × D × Int) j => mdevStep o acc (X j)) M, mdev_count]
  obtain ⟨j, hj⟩ := hsome i hi
  have hmem := ((unmasked_mem hax hi M).2 j).mpr hj
  have hpos := List.length_pos_of_mem hmem
  unfold unmasked at hpos
  rw [if_neg (by simp only [zero_add]; omega)]
  rfl

/-- **C54 (masked mean and standard deviation in one call)**, with the same restriction. -/
theorem C54_masked_mean_stddev_partial (o : StatOps V D) (a mask : Arr) (hm : Heap UInt8)
    (axes : List Int) (junk1 junk2 : Int → V) (h : Heap V) (X : List Int → V) (M : List Int → UInt8)
    (hax : GoodAxes a axes) (hwf : a.WF) (hX : h.Contains a X) (hM : hm.Contains mask M)
    (hshape : a.shape = mask.shape)
    (hlay : ∀ j, ValidIdx a.shape j → addr mask.dims j = addr a.dims j) (hb : a.blk < h.next)
    (hsome : ∀ i, ValidIdx (orUnit 1 (remaining axes a.shape)) i →
      ∃ j, ValidIdx a.shape j ∧ orUnit 0 (remaining axes j) = i ∧ M j = 0) :
    Returns2 h (maskedMeanStddev o a mask hm axes junk1 junk2 h) (orUnit 1 (remaining axes a.shape))
      (fun i => o.toV (o.div
        ((unmasked a.shape axes M i).foldl (fun acc j => mdevStep o acc (X j)) (o.zero, o.zero, 0)).1
        (o.ofInt (unmasked a.shape axes M i).length)))
      (fun i => mdevFinish o ((unmasked a.shape axes M i).foldl
        (fun acc j => mdevStep o acc (X j)) (o.zero, o.zero, 0))) := by
  unfold maskedMeanStddev
  rw [if_pos hshape]
  refine reduceNew2_spec hax hwf _ _ _ junk1 junk2 h _ (masked_visit hX hM hshape hlay hb _) _ _
    (fun i hi => ?_)
  rw [foldl_mask (fun (acc : D × D × Int) j => mdevStep o acc (X j)) M, mdev_count]
  obtain ⟨j, hj⟩ := hsome i hi
  have hmem := ((unmasked_mem hax hi M).2 j).mpr hj
  have hpos := List.length_pos_of_mem hmem
  unfold unmasked at hpos
  rw [if_neg (by simp only [zero_add]; omega)]
  simp only [zero_add]
  rfl

/-- **C54 (exact masked standard deviation)**: in exact arithmetic it is the square root of the
population variance of the unmasked elements. -/
theorem C54_exact_masked_stddev (sqrt : ℚ → ℚ) (X : List Int → ℚ) (l : List (List Int))
    (hne : l ≠ []) :
    mdevFinish (ratOps sqrt) (l.foldl (fun acc j => mdevStep (ratOps sqrt) acc (X j)) (0, 0, 0)) =
      sqrt ((l.map (fun j => (X j - (l.map X).sum / l.length) ^ 2)).sum / l.length) := by
  have hf : ∀ (l : List (List Int)) (p : ℚ × ℚ × Int),
      l.foldl (fun acc j => mdevStep (ratOps sqrt) acc (X j)) p =
      (p.1 + (l.map X).sum, p.2.1 + (l.map (fun j => X j ^ 2)).sum, p.2.2 + l.length) := by
    intro l
    induction l with
    | nil => intro p; simp
    | cons a l ih =>
      intro p
      simp only [List.foldl_cons, ih, List.map_cons, List.sum_cons, List.length_cons,
        Prod.mk.injEq]
      simp only [mdevStep, ratOps, id]
      refine ⟨by ring, by ring, by push_cast; ring⟩
  have hlen : (0 : ℚ) < l.length := by
    have := List.length_pos_of_ne_nil hne
    exact_mod_cast this
  have e : ∀ s2 s1 : ℚ, s2 / l.length - (s1 / l.length) * (s1 / l.length) =
      (s2 - 2 * (s1 / l.length) * s1 + l.length * (s1 / l.length) ^ 2) / l.length := by
    intro s2 s1
    field_simp
    ring
  rw [hf, mdevFinish]
  simp only [ratOps, zero_add, id, Int.cast_natCast]
  rw [e, ← sum_sq_dev]

/-- **C54 (nothing unmasked)**. When some result has no unmasked element, the masked mean fails
with an error instead of returning a number. -/
theorem C54_all_masked_throws_partial (o : StatOps V D) (a mask : Arr) (hm : Heap UInt8)
    (axes : List Int) (junk : Int → V) (h : Heap V) (X : List Int → V) (M : List Int → UInt8)
    (hax : GoodAxes a axes) (hwf : a.WF) (hX : h.Contains a X) (hM : hm.Contains mask M)
    (hshape : a.shape = mask.shape)
    (hlay : ∀ j, ValidIdx a.shape j → addr mask.dims j = addr a.dims j) (hb : a.blk < h.next)
    (i : List Int) (hi : ValidIdx (orUnit 1 (remaining axes a.shape)) i)
    (hnone : ∀ j, ValidIdx a.shape j → orUnit 0 (remaining axes j) = i → M j ≠ 0) :
    maskedMean o a mask hm axes junk h = .throws .runtimeError ∧
    maskedStddev o a mask hm axes junk h = .throws .runtimeError := by
  have hempty : unmasked a.shape axes M i = [] := by
    rw [List.eq_nil_iff_forall_not_mem]
    intro j hj
    obtain ⟨h1, h2, h3⟩ := ((unmasked_mem hax hi M).2 j).mp hj
    exact hnone j h1 h2 h3
  unfold unmasked at hempty
  constructor
  · unfold maskedMean
    rw [if_pos hshape]
    refine reduceNew_throws hax hwf _ _ _ junk h _ (masked_visit hX hM hshape hlay hb _) _ ?_ i hi ?_
    · intro acc
      by_cases h0 : acc.2 = 0
      · left; simp [h0]
      · right; exact ⟨o.toV (o.div acc.1 (o.ofInt acc.2)), by simp [h0]⟩
    · rw [foldl_mask (fun (acc : D × Int) j => (o.add acc.1 (o.toD (X j)), acc.2 + 1)) M, hempty]
      rfl
  · unfold maskedStddev
    rw [if_pos hshape]
    refine reduceNew_throws hax hwf _ _ _ junk h _ (masked_visit hX hM hshape hlay hb _) _ ?_ i hi ?_
    · intro acc
      by_cases h0 : acc.2.2 = 0
      · left; simp [h0]
      · right; exact ⟨mdevFinish o acc, by simp [h0]⟩
    · rw [foldl_mask (fun (acc : D × D × Int) j => mdevStep o acc (X j)) M, hempty]
      rfl

/-- **C54 (shapes differ)**. A mask of another shape is refused before anything is read. -/
theorem C54_shape_mismatch_throws (o : StatOps V D) (a mask : Arr) (hm : Heap UInt8)
    (axes : List Int) (junk : Int → V) (h : Heap V) (hne : a.shape ≠ mask.shape) :
    maskedMean o a mask hm axes junk h = .throws .runtimeError ∧
    maskedStddev o a mask hm axes junk h = .throws .runtimeError ∧
    maskedMeanStddev o a mask hm axes junk junk h = .throws .runtimeError := by
  simp [maskedMean, maskedStddev, maskedMeanStddev, hne]

/-- Mask memory: one block. -/
def mheap (l : List UInt8) : Heap UInt8 :=
  ⟨fun b => if b = 0 then fun i => if i < 0 then none else l[i.toNat]? else fun _ => none, 1⟩

/-- **C54 fails for masks with another layout.** Data `[10, 20]`; the mask is the view `[0, 1]`
taken from the end of a buffer holding `[1, 1, 0, 1]`, so 10 is unmasked and the mean should be 10.
The kernel looks at the start of the buffer instead, finds everything masked and throws. -/
theorem C54_mask_layout_wrong :
    let a : Arr := ⟨0, [⟨2, 1, 0⟩]⟩
    let mask : Arr := ⟨0, [⟨2, 1, 2⟩]⟩
    (mheap [1, 1, 0, 1]).get mask [0] = some 0 ∧ (mheap [1, 1, 0, 1]).get mask [1] = some 1 ∧
    maskedMean (ratOps id) a mask (mheap [1, 1, 0, 1]) [] (fun _ => 0) (heap1 [10, 20]) =
      .throws .runtimeError := by
  refine ⟨by decide, by decide, by rfl⟩

/-- **C54 is undefined behaviour for other layouts**: a data view with an offset and a mask array of
its own: the mask is read past its end. -/
theorem C54_mask_layout_ub :
    let a : Arr := ⟨0, [⟨2, 1, 2⟩]⟩
    let mask : Arr := ⟨0, [⟨2, 1, 0⟩]⟩
    isUb (maskedMean (ratOps id) a mask (mheap [0, 0]) [] (fun _ => 0) (heap1 [1, 2, 3, 4])) = true := by
  decide +kernel

-- a masked mean over the last axis of a 2×3 array
example : resultAt (maskedMean (ratOps id) arr23 arr23 (mheap [0, 1, 0, 1, 1, 0]) [1] (fun _ => 0)
    (heap1 [1, 2, 3, 4, 5, 6])) [0] = some 2 := by
  decide +kernel
example : resultAt (maskedStddev (ratOps id) arr23 arr23 (mheap [0, 1, 0, 1, 1, 0]) [1] (fun _ => 0)
    (heap1 [1, 2, 3, 4, 5, 6])) [0] = some 1 := by
  decide +kernel

end Bliss.Stat
