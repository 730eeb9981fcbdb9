import Verif.Nd.Props
import Verif.Misc.Types

/-!
# Views that start far into an array (C131)

The element-wise loops of the CPU start at `std::accumulate(offset.begin(), offset.end(), 0)`
(bland/bland/ops/cpu/elementwise_binary_op.hpp lines 43-45, elementwise_scalar_op.hpp lines 35-36 and
79-80, elementwise_unary_op.hpp lines 52-53, assignment_op.hpp line 25): the sum of the offsets is kept in
an `int`. `Arr.base` is the exact sum; here the operations start where the code does.
-/

namespace Bliss.Nd

open Bliss.Types (wrap32)

variable {V : Type}

/-- The sum of the offsets in an `int`. -/
def Arr.start (a : Arr) : Int := (a.dims.map Dim.offset).foldl (fun acc o => wrap32 (acc + o)) 0

/-- Dimensions with all of the offset in the first. -/
def startAt (s : Int) : List Dim → List Dim
  | [] => []
  | d :: ds => { d with offset := s } :: ds.map fun e => { e with offset := 0 }

/-- A view as the element-wise loops see it: same shape and strides, starting at the `int` sum of the
offsets (the loops use nothing else of the offsets). -/
def Arr.seen (a : Arr) : Arr := ⟨a.blk, startAt a.start a.dims⟩

/-- `array op scalar` (`elementwise_scalar_op.hpp:20-60`). -/
def scalarOpL (op : V → V) (h : Heap V) (a : Arr) (junk : Int → V) : Outcome (Heap V × Arr) :=
  scalarOp op h a.seen junk

/-- `copy`, `square`, `sqrt`, `abs` (`elementwise_unary_op.hpp:24-75`). -/
def unaryOpL (op : V → V) (h : Heap V) (a : Arr) (junk : Int → V) : Outcome (Heap V × Arr) :=
  unaryOp op h a.seen junk

/-- `a + b`, `a / b` (`elementwise_binary_op.hpp:21-113`). -/
def binOpL (op : V → V → V) (h : Heap V) (a b : Arr) (junk : Int → V) : Outcome (Heap V × Arr) :=
  binOp op h a.seen b.seen junk

/-- `fill` (`assignment_op.hpp:14-47`). -/
def fillL (v : V) (h : Heap V) (out : Arr) : Outcome (Heap V) := fill v h out.seen

/-! ## Lemmas -/

theorem wrap32_add (x y : Int) : wrap32 (wrap32 x + y) = wrap32 (x + y) := by
  simp only [wrap32]; omega

theorem start_eq (a : Arr) : a.start = wrap32 a.base := by
  unfold Arr.start Arr.base
  suffices ∀ (l : List Int) (x : Int), l.foldl (fun acc o => wrap32 (acc + o)) (wrap32 x) =
      wrap32 (l.foldl (· + ·) x) by
    have h := this (a.dims.map Dim.offset) 0
    rwa [show wrap32 0 = 0 by decide] at h
  intro l
  induction l with
  | nil => intro x; rfl
  | cons o l ih => intro x; simp only [List.foldl_cons, wrap32_add]; exact ih (x + o)

theorem startAt_shape (s : Int) (ds : List Dim) : (startAt s ds).map Dim.size = ds.map Dim.size := by
  cases ds with
  | nil => rfl
  | cons d ds => simp [startAt, Function.comp_def]

theorem seen_shape (a : Arr) : a.seen.shape = a.shape := startAt_shape _ _

theorem seen_wf {a : Arr} (h : a.WF) : a.seen.WF := by
  intro d hd
  unfold Arr.seen startAt at hd
  cases e : a.dims with
  | nil => simp [e] at hd
  | cons x xs =>
    simp only [e, List.mem_cons, List.mem_map] at hd
    rcases hd with rfl | ⟨y, hy, rfl⟩
    · exact h x (by simp [e])
    · exact h y (by simp [e, hy])

theorem addr_zeroed (ds : List Dim) (idx : List Int) (hl : idx.length = ds.length) :
    addr (ds.map fun e => { e with offset := 0 }) idx =
      addr ds idx - (ds.map Dim.offset).foldl (· + ·) 0 := by
  induction ds generalizing idx with
  | nil => simp [addr]
  | cons d ds ih =>
    cases idx with
    | nil => simp at hl
    | cons i is =>
      have := ih is (by simpa using hl)
      simp only [List.map_cons, addr, List.foldl_cons] at *
      rw [foldl_add_shift _ (0 + d.offset), this]
      ring

/-- Every element of the view, seen from the code, is moved by the same amount. -/
theorem addr_seen (a : Arr) (idx : List Int) (hl : idx.length = a.dims.length) :
    addr a.seen.dims idx = addr a.dims idx - a.base + (if a.dims = [] then 0 else wrap32 a.base) := by
  rw [← start_eq]
  unfold Arr.seen Arr.base
  cases e : a.dims with
  | nil => simp [startAt, addr]
  | cons d ds =>
    cases idx with
    | nil => simp [e] at hl
    | cons i is =>
      have hl' : is.length = ds.length := by simpa [e] using hl
      simp only [startAt, addr, List.map_cons, List.foldl_cons, reduceCtorEq, if_false]
      rw [addr_zeroed ds is hl', foldl_add_shift _ (0 + d.offset)]
      ring

/-- The view starts less than `2 ^ 31` elements into its array. -/
def Near (a : Arr) : Prop := 0 ≤ a.base ∧ a.base < 2 ^ 31

theorem addr_near {a : Arr} (h : Near a) {idx : List Int} (hv : ValidIdx a.shape idx) :
    addr a.seen.dims idx = addr a.dims idx := by
  have hl : idx.length = a.dims.length := by rw [hv.length_eq]; simp [Arr.shape]
  rw [addr_seen a idx hl]
  unfold Near at h
  split
  · next e => have : a.base = 0 := by simp [Arr.base, e]
              omega
  · have : wrap32 a.base = a.base := by simp only [wrap32]; omega
    omega

theorem contains_seen {a : Arr} (hn : Near a) {h : Heap V} {A : List Int → V} (hA : h.Contains a A) :
    h.Contains a.seen A := by
  intro idx hv
  rw [seen_shape] at hv
  unfold Heap.get
  rw [addr_near hn hv]
  exact hA idx hv

/-! ## C131 -/

/-- C131, operations with a scalar, for views that start less than `2 ^ 31` elements into their array.
Missing: views that start later (`C131_far_view_ub`, `C131_far_view_wrong`). -/
theorem C131_scalar_partial (op : V → V) (h : Heap V) (a : Arr) (junk : Int → V) (A : List Int → V)
    (hwf : a.WF) (hA : h.Contains a A) (hla : a.blk < h.next) (hn : Near a) :
    ∃ h' r, scalarOpL op h a junk = .ok (h', r) ∧ r.shape = a.shape ∧
      h'.Contains r (fun idx => op (A idx)) ∧ h.Frame h' := by
  obtain ⟨h', r, e1, e2, -, e4, e5⟩ := C48_scalar_op op h a.seen junk A (seen_wf hwf)
    (contains_seen hn hA) hla
  exact ⟨h', r, e1, by rw [e2, seen_shape], e4, e5⟩

/-- C131, unary operations, for the same views. Missing: the other views. -/
theorem C131_unary_partial (op : V → V) (h : Heap V) (a : Arr) (junk : Int → V) (A : List Int → V)
    (hwf : a.WF) (hA : h.Contains a A) (hla : a.blk < h.next) (hn : Near a) :
    ∃ h' r, unaryOpL op h a junk = .ok (h', r) ∧ r.shape = a.shape ∧
      h'.Contains r (fun idx => op (A idx)) ∧ h.Frame h' := by
  obtain ⟨h', r, e1, e2, -, e4, e5⟩ := C50_unary_new op h a.seen junk A (seen_wf hwf)
    (contains_seen hn hA) hla
  exact ⟨h', r, e1, by rw [e2, seen_shape], e4, e5⟩

/-- C131, operations on two arrays, under the conditions of C47 and for the same views. Missing: the other
views. -/
theorem C131_binary_partial (op : V → V → V) (h : Heap V) (a b : Arr) (junk : Int → V)
    (A B : List Int → V) (shape : List Int) (hexp : expandShapes a.shape b.shape = .ok shape)
    (hne : shape ≠ []) (ha : ∀ s ∈ a.shape, 1 ≤ s) (hb : ∀ s ∈ b.shape, 1 ≤ s)
    (fa : FrontSafe a.shape shape) (fb : FrontSafe b.shape shape)
    (hA : h.Contains a A) (hB : h.Contains b B) (hla : a.blk < h.next) (hlb : b.blk < h.next)
    (hna : Near a) (hnb : Near b) :
    ∃ h' r, binOpL op h a b junk = .ok (h', r) ∧ r.shape = shape ∧
      h'.Contains r (fun idx => op (A (bcIdx a.shape idx)) (B (bcIdx b.shape idx))) ∧ h.Frame h' := by
  have := C47_binary_partial op h a.seen b.seen junk A B shape (by rw [seen_shape, seen_shape]; exact hexp)
    hne (by rw [seen_shape]; exact ha) (by rw [seen_shape]; exact hb) (by rw [seen_shape]; exact fa)
    (by rw [seen_shape]; exact fb) (contains_seen hna hA) (contains_seen hnb hB) hla hlb
  rwa [seen_shape, seen_shape] at this

/-- C131, `fill`, for the same views. Missing: the other views. -/
theorem C131_fill_partial (v : V) (h : Heap V) (out : Arr) (hwf : out.WF) (hm : h.Mapped out)
    (hd : out.Distinct) (hn : Near out) :
    ∃ h', fillL v h out = .ok h' ∧ h.Updated h' out (fun _ => v) := by
  obtain ⟨h', e1, e2, -⟩ := fill_spec v h out.seen (seen_wf hwf)
    (fun idx hv => by
      rw [seen_shape] at hv
      unfold Heap.get
      rw [addr_near hn hv]
      exact hm idx hv)
    (fun i j hi hj he => by
      rw [seen_shape] at hi hj
      rw [addr_near hn hi, addr_near hn hj] at he
      exact hd i j hi hj he)
  refine ⟨h', e1, fun idx hv => ?_, fun b i hb => e2.2 b i fun e idx hv => ?_⟩
  · have := e2.1 idx (by rw [seen_shape]; exact hv)
    unfold Heap.get at this ⊢
    rwa [addr_near hn hv] at this
  · rw [seen_shape] at hv
    rw [addr_near hn hv]
    exact hb e idx hv

theorem forLoop_first_ub {σ : Type} {n : Nat} (hn : 0 < n) {body : Nat → σ → Outcome σ} {s : σ}
    (h : body 0 s = .ub) : forLoop n body s = .ub := by
  induction n with
  | zero => omega
  | succ n ih =>
    rw [forLoop_succ]
    by_cases e : n = 0
    · subst e; exact h
    · rw [ih (by omega)]; rfl

/-- **C131 is undefined for views that start between `2 ^ 31` and `2 ^ 32` elements into their array**: the
first element read lies before the array. -/
theorem C131_far_view_ub (op : V → V) (h : Heap V) (a : Arr) (junk : Int → V) (hne : a.dims ≠ [])
    (hpos : ∀ s ∈ a.shape, 1 ≤ s) (hla : a.blk < h.next) (hblk : ∀ i < 0, h.mem a.blk i = none)
    (h1 : 2 ^ 31 ≤ a.base) (h2 : a.base < 2 ^ 32) : scalarOpL op h a junk = .ub := by
  have hwf : a.WF := fun d hd => by
    have := hpos d.size (by simp only [Arr.shape, List.mem_map]; exact ⟨d, hd, rfl⟩)
    omega
  have hb : a.seen.base = a.base - 2 ^ 32 := by
    have hs : a.start = a.base - 2 ^ 32 := by rw [start_eq]; simp only [wrap32]; omega
    rw [← hs]
    unfold Arr.seen Arr.base
    cases e : a.dims with
    | nil => exact absurd e hne
    | cons d ds =>
      simp only [startAt, List.map_cons, List.map_map, List.foldl_cons, zero_add, Function.comp_def]
      generalize a.start = x
      clear e
      induction ds with
      | nil => rfl
      | cons y ys ih => simpa using ih
  obtain ⟨p1, p2, p3, p4, p5, p6, p7⟩ := alloc_props h a.seen.shape junk (by
    rw [seen_shape]; exact shape_nonneg hwf)
  unfold scalarOpL scalarOp
  simp only
  unfold scalarLoop
  have hl : ¬ a.seen.dims.length < (alloc h a.seen.shape junk).2.dims.length := by
    have : (alloc h a.seen.shape junk).2.dims.length = a.seen.dims.length := by
      have := congrArg List.length p1
      simpa [Arr.shape] using this
    omega
  rw [if_neg hl, forLoop_first_ub]
  · rfl
  · have : 1 ≤ (alloc h a.seen.shape junk).2.numel := by
      unfold Arr.numel
      rw [p1, seen_shape]
      have : ∀ (l : List Int) (x : Int), 1 ≤ x → (∀ s ∈ l, 1 ≤ s) → 1 ≤ l.foldl (· * ·) x := by
        intro l
        induction l with
        | nil => intro x hx _; exact hx
        | cons s l ih =>
          intro x hx hs
          exact ih _ (by nlinarith [hs s (by simp)]) fun t ht => hs t (by simp [ht])
      exact this _ 1 le_rfl hpos
    omega
  · have : ((alloc h a.seen.shape junk).1.mem a.seen.blk) (a.seen.base) = none := by
      rw [p7 a.seen.blk hla, hb]
      exact hblk _ (by omega)
    simp only [body2, Heap.load, Buf.load, this]
    rfl

/-- A block of more than `2 ^ 32` elements; element `i` holds `i`. -/
def longHeap : Heap Int := ⟨fun b i => if b = 0 ∧ 0 ≤ i ∧ i < 2 ^ 33 then some i else none, 1⟩

/-- **C131 fails for later views**: of the two elements 2^32 and 2^32 + 1 the operation adds 1 to the
first two elements of the array instead. -/
theorem C131_far_view_wrong :
    longHeap.get ⟨0, [⟨2, 1, 2 ^ 32⟩]⟩ [1] = some (2 ^ 32 + 1) ∧
    resultAt (scalarOpL (· + 1) longHeap ⟨0, [⟨2, 1, 2 ^ 32⟩]⟩ (fun _ => 0)) [1] = some 2 := by
  decide +kernel

/-- A view 2^30 elements into that block. -/
example : ∃ h' r, scalarOpL (· + 1) longHeap ⟨0, [⟨2, 1, 2 ^ 30⟩]⟩ (fun _ => 0) = .ok (h', r) ∧
    r.shape = [2] ∧ h'.Contains r (fun idx => idx.getD 0 0 + 2 ^ 30 + 1) := by
  obtain ⟨h', r, e1, e2, e3, _⟩ := C131_scalar_partial (· + 1) longHeap ⟨0, [⟨2, 1, 2 ^ 30⟩]⟩ (fun _ => 0)
    (fun idx => idx.getD 0 0 + 2 ^ 30) (by intro d hd; simp at hd; subst hd; simp) (by
      intro idx hv
      cases hv with
      | cons h1 h2 =>
        cases h2
        simp at h1
        simp only [Heap.get, addr, longHeap, List.getD_cons_zero]
        rw [if_pos (by simp; omega)]
        congr 1; ring) (by decide) ⟨by decide, by decide⟩
  exact ⟨h', r, e1, e2, e3⟩

/-- A view 3 * 2^30 elements into it. -/
example : scalarOpL (· + 1) longHeap ⟨0, [⟨2, 1, 3 * 2 ^ 30⟩]⟩ (fun _ => 0) = .ub :=
  C131_far_view_ub _ _ _ _ (by simp) (by decide) (by decide)
    (fun i hi => by simp only [longHeap]; rw [if_neg]; omega) (by decide) (by decide)

end Bliss.Nd
