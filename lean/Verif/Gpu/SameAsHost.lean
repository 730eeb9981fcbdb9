import Verif.Gpu.ElementwiseProps
import Verif.Misc.Elements

/-!
# C132: the same expression on the CPU and on a CUDA device

A user moves arrays to the device, computes, and expects the numbers the CPU gives. An expression is
a tree of element-wise operations; each node is evaluated by its own call, which allocates the result.
The functors of the two sides (`ops/cpu/arithmetic_cpu_impl.hpp:13-70`,
`ops/cuda/arithmetic_cuda_impl.cuh:13-85`, `ops/cpu/comparison_cpu_impl.hpp:9-54`,
`ops/cuda/comparison_cuda_impl.cuh:9-60`) are the same expressions, so one function stands for both;
the square root is the exception and is treated at the end.
-/

namespace Bliss.Gpu

open Bliss.Nd

variable {V : Type}

/-- An expression over arrays. `scal` is an operation with a scalar; `bin left` is an operation on
two arrays, `left` for those whose result the CPU gives the shape of the first operand
(`a - b`, `a * b` and comparisons). -/
inductive Expr (V : Type) where
  | input (i : Nat)
  | un (f : V → V) (e : Expr V)
  | scal (f : V → V) (e : Expr V)
  | bin (left : Bool) (f : V → V → V) (e₁ e₂ : Expr V)

/-! ## Evaluation -/

/-- Evaluation on the CPU, one call per node (`arithmetic_cpu.cpp:23-64`, `comparison_cpu.cpp:19-32`,
`ops.cpp:46-90`); `env` are the arrays the variables hold. -/
def Expr.host (junk : Int → V) (env : Nat → Arr) : Expr V → Heap V → Outcome (Heap V × Arr)
  | .input i, h => .ok (h, env i)
  | .un f e, h => do
    let (h1, a) ← e.host junk env h
    unaryOp f h1 a junk
  | .scal f e, h => do
    let (h1, a) ← e.host junk env h
    scalarOp f h1 a junk
  | .bin left f e₁ e₂, h => do
    let (h1, a) ← e₁.host junk env h
    let (h2, b) ← e₂.host junk env h1
    if left then binOpLeft f h2 a b junk else binOp f h2 a b junk

/-- Continue with `k` after a call that ended in `o`. -/
def After (o : Outcome (Heap V × Arr)) (k : Heap V → Arr → Outcome (Heap V × Arr) → Prop)
    (o' : Outcome (Heap V × Arr)) : Prop :=
  match o with
  | .ok (h, a) => k h a o'
  | .throws e => o' = .throws e
  | .ub => o' = .ub

/-- `e.Dev junk env h o`: evaluation on the device can end in `o` under some schedule
(`arithmetic_cuda.cu:21-66`, `arithmetic_scalar_cuda.cu:21-90`, `ops_cuda.cu`). Simplified: the
comparisons on the device give the result the shape of the first operand too
(`comparison_cuda.cu:19-32`); here every operation gives it the combined shape, which is the same
when the hypotheses of the theorems hold. -/
def Expr.Dev (junk : Int → V) (env : Nat → Arr) :
    Expr V → Heap V → Outcome (Heap V × Arr) → Prop
  | .input i, h, o => o = .ok (h, env i)
  | .un f e, h, o => ∃ o₁, e.Dev junk env h o₁ ∧ After o₁ (fun h1 a => GpuUnary f h1 a junk) o
  | .scal f e, h, o => ∃ o₁, e.Dev junk env h o₁ ∧ After o₁ (fun h1 a => GpuUnary f h1 a junk) o
  | .bin _ f e₁ e₂, h, o => ∃ o₁, e₁.Dev junk env h o₁ ∧ After o₁ (fun h1 a o' =>
      ∃ o₂, e₂.Dev junk env h1 o₂ ∧ After o₂ (fun h2 b => GpuBinary f h2 a b junk) o') o

/-! ## Specification -/

/-- The value of the expression at an index: the operations applied to the elements of the inputs,
broadcast to that index. -/
def Expr.val (S : Nat → List Int) (X : Nat → List Int → V) : Expr V → List Int → V
  | .input i, idx => X i (bcIdx (S i) idx)
  | .un f e, idx => f (e.val S X idx)
  | .scal f e, idx => f (e.val S X idx)
  | .bin _ f e₁ e₂, idx => f (e₁.val S X idx) (e₂.val S X idx)

/-- The expression has shape `s` when the inputs have shapes `S`: shapes combine as in NumPy, but with
equal ranks, below 2³¹ elements, and with a first operand that need not be broadcast where the CPU
would not do it. -/
inductive Expr.Fits (S : Nat → List Int) : Expr V → List Int → Prop
  | input (i : Nat) : Expr.Fits S (.input i) (S i)
  | un {f e s} (h : Expr.Fits S e s) : Expr.Fits S (.un f e) s
  | scal {f e s} (h : Expr.Fits S e s) : Expr.Fits S (.scal f e) s
  | bin {left f e₁ e₂ s₁ s₂ s} (h₁ : Expr.Fits S e₁ s₁) (h₂ : Expr.Fits S e₂ s₂)
      (hlen : s₁.length = s₂.length) (hexp : expandShapes s₁ s₂ = .ok s)
      (hleft : left = true → s = s₁) (hsize : s.foldl (· * ·) 1 < 2 ^ 31) :
      Expr.Fits S (.bin left f e₁ e₂) s

/-- The variables hold arrays or slices of shapes `S` with elements `X`. -/
structure Holds (h : Heap V) (env : Nat → Arr) (S : Nat → List Int) (X : Nat → List Int → V) :
    Prop where
  shape : ∀ i, (env i).shape = S i
  elems : ∀ i, h.Contains (env i) (X i)
  live : ∀ i, (env i).blk < h.next

/-- The inputs have no empty dimension, one to four dimensions and less than 2³¹ elements. -/
structure Sizes (S : Nat → List Int) : Prop where
  pos : ∀ i, ∀ s ∈ S i, 1 ≤ s
  rank : ∀ i, 1 ≤ (S i).length ∧ (S i).length ≤ 4
  size : ∀ i, (S i).foldl (· * ·) 1 < 2 ^ 31

/-- The outcome is a new array of shape `s` with elements `A`, in a heap where everything else is
as before. -/
def Returns (h : Heap V) (o : Outcome (Heap V × Arr)) (s : List Int) (A : List Int → V) : Prop :=
  ∃ h' r, o = .ok (h', r) ∧ r.shape = s ∧ h'.Contains r A ∧ h.Frame h'

/-! ## Shapes -/

theorem Holds.frame {h h' : Heap V} {env S} {X : Nat → List Int → V} (H : Holds h env S X)
    (hf : h.Frame h') (hn : h.next ≤ h'.next) : Holds h' env S X :=
  ⟨H.shape, fun i => Contains.frame (H.elems i) (H.live i) hf, fun i => by have := H.live i; omega⟩

theorem Frame.trans {h h' h'' : Heap V} (h1 : h.Frame h') (hn : h.next ≤ h'.next)
    (h2 : h'.Frame h'') : h.Frame h'' := by
  intro b hb
  rw [h2 b (by omega), h1 b hb]

theorem expandShapes_ge_one {a b shape : List Int} (hexp : expandShapes a b = .ok shape)
    (ha : ∀ s ∈ a, 1 ≤ s) : ∀ s ∈ shape, 1 ≤ s := by
  have hmax := (C46_elementwise_max _ _ _ hexp)
  intro s hs
  obtain ⟨i, hi, rfl⟩ := List.mem_iff_getElem.mp hs
  have := hmax.2 (shape.length - 1 - i)
  have h1 : dimFromEnd shape (shape.length - 1 - i) = shape[i] := by
    unfold dimFromEnd
    rw [List.getD_eq_getElem?_getD, List.getElem?_reverse (by omega)]
    have : shape.length - 1 - (shape.length - 1 - i) = i := by omega
    rw [this, List.getElem?_eq_getElem hi]; rfl
  have h2 : 1 ≤ dimFromEnd a (shape.length - 1 - i) := by
    unfold dimFromEnd
    rw [List.getD_eq_getElem?_getD]
    cases hx : a.reverse[shape.length - 1 - i]? with
    | none => simp
    | some v => simpa using ha v (List.mem_reverse.mp (List.mem_of_getElem? hx))
  omega

/-- What `Fits` gives about the shape. -/
theorem Fits.facts {S : Nat → List Int} (hS : Sizes S) {e : Expr V} {s : List Int}
    (h : e.Fits S s) : (∀ x ∈ s, 1 ≤ x) ∧ 1 ≤ s.length ∧ s.length ≤ 4 ∧
      s.foldl (· * ·) 1 < 2 ^ 31 := by
  induction h with
  | input i => exact ⟨hS.pos i, (hS.rank i).1, (hS.rank i).2, hS.size i⟩
  | un h ih => exact ih
  | scal h ih => exact ih
  | bin h₁ h₂ hlen hexp hleft hsize ih₁ ih₂ =>
    have hl := (C46_elementwise_max _ _ _ hexp).1
    refine ⟨expandShapes_ge_one hexp ih₁.1, ?_, ?_, hsize⟩ <;> omega

theorem bcIdx_cons (s i : Int) {ss is : List Int} (h : ss.length = is.length) :
    bcIdx (s :: ss) (i :: is) = (if s = 1 then 0 else i) :: bcIdx ss is := by
  unfold bcIdx
  simp [h]

theorem bcIdx_bcIdx {s t : List Int} (hb : List.Forall₂ (fun x o => x = o ∨ x = 1) s t) :
    ∀ {idx : List Int}, idx.length = t.length → bcIdx s (bcIdx t idx) = bcIdx s idx := by
  induction hb with
  | nil => intro idx _; simp [bcIdx]
  | @cons x o s t hx hst ih =>
    intro idx hl
    cases idx with
    | nil => simp at hl
    | cons i is =>
      simp only [List.length_cons, Nat.add_right_cancel_iff] at hl
      have hst' := hst.length_eq
      have hlen : (bcIdx t is).length = t.length := by simp [bcIdx, hl]
      rw [bcIdx_cons o i hl.symm, bcIdx_cons x _ (by omega), bcIdx_cons x i (by omega), ih hl]
      congr 1
      rcases hx with rfl | rfl
      · split <;> rfl
      · simp

/-- Each input below broadcasts to the shape. -/
theorem Fits.val_bc {S : Nat → List Int} (hS : Sizes S) (X : Nat → List Int → V) {e : Expr V}
    {s : List Int} (h : e.Fits S s) : ∀ {t idx : List Int}, s.length = t.length →
      BroadcastsTo s t → idx.length = t.length → e.val S X (bcIdx s idx) = e.val S X idx := by
  induction h with
  | input i =>
    intro t idx hlen hb hl
    simp only [Expr.val]
    rw [bcIdx_bcIdx (List.forall₂_same.mpr fun x _ => .inl rfl) (by omega)]
  | un h ih => intro t idx hlen hb hl; simp only [Expr.val]; rw [ih hlen hb hl]
  | scal h ih => intro t idx hlen hb hl; simp only [Expr.val]; rw [ih hlen hb hl]
  | @bin left f e₁ e₂ s₁ s₂ s h₁ h₂ hlen hexp hleft hsize ih₁ ih₂ =>
    intro t idx hst hb hl
    obtain ⟨b1, b2⟩ := expandShapes_broadcasts hexp (Fits.facts hS h₁).1 (Fits.facts hS h₂).1
    have hl' := (C46_elementwise_max _ _ _ hexp).1
    have hbl : (bcIdx s idx).length = s.length := by simp [bcIdx]; omega
    have comp : ∀ {u : List Int}, u.length = s.length → BroadcastsTo u s →
        bcIdx u (bcIdx s idx) = bcIdx u idx := by
      intro u hu hbu
      refine bcIdx_bcIdx ?_ (by omega)
      have := hbu.2
      rwa [hu, Nat.sub_self, List.drop_zero] at this
    simp only [Expr.val]
    rw [← ih₁ (t := s) (idx := bcIdx s idx) (by omega) b1 hbl, comp (by omega) b1,
      ← ih₂ (t := s) (idx := bcIdx s idx) (by omega) b2 hbl, comp (by omega) b2,
      ih₁ (t := s) (by omega) b1 (by omega), ih₂ (t := s) (by omega) b2 (by omega)]

/-! ## One call -/

theorem host_unary (op : V → V) (h : Heap V) (a : Arr) (junk : Int → V) (A : List Int → V)
    (hs : ∀ s ∈ a.shape, 0 ≤ s) (hA : h.Contains a A) (hla : a.blk < h.next) :
    ∃ h', unaryOp op h a junk = .ok (h', (alloc h a.shape junk).2) ∧
      h'.Contains (alloc h a.shape junk).2 (fun idx => op (A idx)) ∧ h.Frame h' ∧
      h'.next = h.next + 1 := by
  obtain ⟨p1, p2, p3, p4, p5, p6, p7⟩ := alloc_props h a.shape junk hs
  obtain ⟨h', e1, e2, e3⟩ := unaryLoop_spec op (alloc h a.shape junk).1 (alloc h a.shape junk).2 a
    p1.symm p2 (Contains.frame hA hla p7) p4 p3 (fun e => by omega)
  obtain ⟨q1, q2, q3⟩ := fresh_of_updated (h := h) p7 p5 p6 e2 e3
  refine ⟨h', ?_, q1, q2, q3⟩
  unfold unaryOp
  simp only [e1, Outcome.bind_ok, Outcome.pure_eq]

theorem host_scalar (op : V → V) (h : Heap V) (a : Arr) (junk : Int → V) (A : List Int → V)
    (hs : ∀ s ∈ a.shape, 0 ≤ s) (hA : h.Contains a A) (hla : a.blk < h.next) :
    ∃ h', scalarOp op h a junk = .ok (h', (alloc h a.shape junk).2) ∧
      h'.Contains (alloc h a.shape junk).2 (fun idx => op (A idx)) ∧ h.Frame h' ∧
      h'.next = h.next + 1 := by
  obtain ⟨p1, p2, p3, p4, p5, p6, p7⟩ := alloc_props h a.shape junk hs
  obtain ⟨h', e1, e2, e3⟩ := scalarLoop_spec op (alloc h a.shape junk).1 (alloc h a.shape junk).2 a
    p1.symm p2 (Contains.frame hA hla p7) p4 p3 (fun e => by omega)
  obtain ⟨q1, q2, q3⟩ := fresh_of_updated (h := h) p7 p5 p6 e2 e3
  refine ⟨h', ?_, q1, q2, q3⟩
  unfold scalarOp
  simp only [e1, Outcome.bind_ok, Outcome.pure_eq]

theorem host_binary (left : Bool) (op : V → V → V) (h : Heap V) (a b : Arr) (junk : Int → V)
    (A B : List Int → V) (shape : List Int) (hexp : expandShapes a.shape b.shape = .ok shape)
    (hleft : left = true → shape = a.shape)
    (hne : shape ≠ []) (ha : ∀ s ∈ a.shape, 1 ≤ s) (hb : ∀ s ∈ b.shape, 1 ≤ s)
    (hlen : a.shape.length = b.shape.length)
    (hA : h.Contains a A) (hB : h.Contains b B) (hla : a.blk < h.next) (hlb : b.blk < h.next) :
    ∃ h', (if left then binOpLeft op h a b junk else binOp op h a b junk) =
        .ok (h', (alloc h shape junk).2) ∧
      h'.Contains (alloc h shape junk).2
        (fun idx => op (A (bcIdx a.shape idx)) (B (bcIdx b.shape idx))) ∧ h.Frame h' ∧
      h'.next = h.next + 1 := by
  obtain ⟨ba, bb⟩ := expandShapes_broadcasts hexp ha hb
  have hl := (C46_elementwise_max _ _ _ hexp).1
  obtain ⟨p1, p2, p3, p4, p5, p6, p7⟩ := alloc_props h shape junk (expandShapes_nonneg hexp ha)
  obtain ⟨h', e1, e2, e3⟩ := binInto_spec op (alloc h shape junk).1 (alloc h shape junk).2 a b
    (by intro e; apply hne; rw [← p1]; simp [Arr.shape, e])
    (by rw [p1]; exact ba) (by rw [p1]; exact bb)
    (by rw [p1]; exact frontSafe_of_length (by omega))
    (by rw [p1]; exact frontSafe_of_length (by omega))
    p2 (Contains.frame hA hla p7) (Contains.frame hB hlb p7) p4 p3
    (fun e => by omega) (fun e => by omega)
  obtain ⟨q1, q2, q3⟩ := fresh_of_updated (h := h) p7 p5 p6 e2 e3
  refine ⟨h', ?_, q1, q2, q3⟩
  have hc := binCheck_false hexp
  cases left with
  | true =>
    have := hleft rfl
    subst this
    simp only [if_true]
    unfold binOpLeft
    simp only [hc, e1, Bool.false_eq_true, if_false, Outcome.bind_ok, Outcome.pure_eq]
  | false =>
    simp only [Bool.false_eq_true, if_false]
    unfold binOp
    rw [hexp, Outcome.bind_ok]
    simp only [hc, e1, Bool.false_eq_true, if_false, Outcome.bind_ok, Outcome.pure_eq]

/-- A launch returns the array it was given, and allocates nothing. -/
theorem device_out {h1 h' : Heap V} {out r : Arr} {ins : List Operand} {f : List V → V}
    (hd : Device (.ok (h1, out, ins)) f (.ok (h', r))) : r = out ∧ h'.next = h1.next := by
  cases (show Launch h1 _ out (.ok (h', r)) from hd) with
  | done hx => exact ⟨rfl, rfl⟩

theorem gpuUnary_out {op : V → V} {h h' : Heap V} {a r : Arr} {junk : Int → V}
    (hd : GpuUnary op h a junk (.ok (h', r))) :
    r = (alloc h a.shape junk).2 ∧ h'.next = h.next + 1 := by
  unfold GpuUnary gpuUnaryHost at hd
  simp only at hd
  cases ho : operandFor a (alloc h a.shape junk).2 with
  | ok p =>
    rw [ho, Outcome.bind_ok] at hd
    obtain ⟨e1, e2⟩ := device_out hd
    exact ⟨e1, e2⟩
  | throws e => rw [ho] at hd; cases hd
  | ub => rw [ho] at hd; cases hd

theorem gpuBinary_out {op : V → V → V} {h h' : Heap V} {a b r : Arr} {junk : Int → V}
    {shape : List Int} (hexp : expandShapes a.shape b.shape = .ok shape)
    (hd : GpuBinary op h a b junk (.ok (h', r))) :
    r = (alloc h shape junk).2 ∧ h'.next = h.next + 1 := by
  unfold GpuBinary gpuBinaryHost at hd
  rw [hexp, Outcome.bind_ok] at hd
  simp only [binCheck_false hexp, Bool.false_eq_true, if_false] at hd
  cases ho : operandFor a (alloc h shape junk).2 with
  | ok p =>
    rw [ho, Outcome.bind_ok] at hd
    cases ho2 : operandFor b (alloc h shape junk).2 with
    | ok q =>
      rw [ho2, Outcome.bind_ok] at hd
      obtain ⟨e1, e2⟩ := device_out hd
      exact ⟨e1, e2⟩
    | throws e => rw [ho2] at hd; cases hd
    | ub => rw [ho2] at hd; cases hd
  | throws e => rw [ho] at hd; cases hd
  | ub => rw [ho] at hd; cases hd

/-! ## Whole expressions -/

theorem contains_congr {h : Heap V} {a : Arr} {A B : List Int → V} (hA : h.Contains a A)
    (hAB : ∀ idx, ValidIdx a.shape idx → A idx = B idx) : h.Contains a B := by
  intro idx hv
  rw [hA idx hv, hAB idx hv]

theorem validIdx_length {s idx : List Int} (h : ValidIdx s idx) : idx.length = s.length :=
  h.length_eq

/-- The result of an evaluation, with what the next call needs. -/
structure Good (h h' : Heap V) (r : Arr) (s : List Int) (A : List Int → V) : Prop where
  shape : r.shape = s
  elems : h'.Contains r A
  frame : h.Frame h'
  next : h.next ≤ h'.next
  live : r.blk < h'.next

theorem Good.new {h h1 h' : Heap V} {s : List Int} {junk : Int → V} {A : List Int → V}
    (hs : ∀ x ∈ s, 1 ≤ x) (hc : h'.Contains (alloc h1 s junk).2 A) (f1 : h.Frame h1)
    (n1 : h.next ≤ h1.next) (hf : h1.Frame h') (hn : h'.next = h1.next + 1) :
    Good h h' (alloc h1 s junk).2 s A := by
  obtain ⟨p1, -, -, -, p5, -⟩ := alloc_props h1 s junk (fun x hx => by have := hs x hx; omega)
  exact ⟨p1, hc, Frame.trans f1 n1 hf, by omega, by omega⟩

theorem host_good (junk : Int → V) (env : Nat → Arr) {S : Nat → List Int} (hS : Sizes S)
    (X : Nat → List Int → V) {e : Expr V} {s : List Int} (hfit : e.Fits S s) :
    ∀ h : Heap V, Holds h env S X →
      ∃ h' r, e.host junk env h = .ok (h', r) ∧ Good h h' r s (e.val S X) := by
  induction hfit with
  | input i =>
    intro h H
    refine ⟨h, env i, rfl, H.shape i, contains_congr (H.elems i) fun idx hv => ?_, fun _ _ => rfl,
      le_refl _, H.live i⟩
    rw [H.shape i] at hv
    simp only [Expr.val, bcIdx_self hv]
  | @un f e s hf ih =>
    intro h H
    obtain ⟨h1, a, e1, g⟩ := ih h H
    have hpos := (Fits.facts hS hf).1
    obtain ⟨h', e2, c, fr, nx⟩ := host_unary f h1 a junk _
      (by rw [g.shape]; exact fun x hx => by have := hpos x hx; omega) g.elems g.live
    rw [g.shape] at e2 c
    refine ⟨h', _, ?_, Good.new hpos c g.frame g.next fr nx⟩
    simp only [Expr.host, e1, Outcome.bind_ok, e2]
  | @scal f e s hf ih =>
    intro h H
    obtain ⟨h1, a, e1, g⟩ := ih h H
    have hpos := (Fits.facts hS hf).1
    obtain ⟨h', e2, c, fr, nx⟩ := host_scalar f h1 a junk _
      (by rw [g.shape]; exact fun x hx => by have := hpos x hx; omega) g.elems g.live
    rw [g.shape] at e2 c
    refine ⟨h', _, ?_, Good.new hpos c g.frame g.next fr nx⟩
    simp only [Expr.host, e1, Outcome.bind_ok, e2]
  | @bin left f e₁ e₂ s₁ s₂ s h₁ h₂ hlen hexp hleft hsize ih₁ ih₂ =>
    intro h H
    obtain ⟨h1, a, e1, g1⟩ := ih₁ h H
    obtain ⟨h2, b, e2, g2⟩ := ih₂ h1 (H.frame g1.frame g1.next)
    have f1 := Fits.facts hS h₁
    have f2 := Fits.facts hS h₂
    have f3 := Fits.facts hS (Expr.Fits.bin (f := f) h₁ h₂ hlen hexp hleft hsize)
    have la := g1.live
    have nn := g2.next
    have la2 : a.blk < h2.next := by omega
    obtain ⟨h', e3, c, fr, nx⟩ := host_binary left f h2 a b junk _ _ s
      (by rw [g1.shape, g2.shape]; exact hexp) (by rw [g1.shape]; exact hleft)
      (by intro e; rw [e] at f3; simp at f3)
      (by rw [g1.shape]; exact f1.1) (by rw [g2.shape]; exact f2.1)
      (by rw [g1.shape, g2.shape]; exact hlen)
      (Contains.frame g1.elems g1.live g2.frame) g2.elems la2 g2.live
    have hf12 := Frame.trans g1.frame g1.next g2.frame
    have hn12 : h.next ≤ h2.next := le_trans g1.next g2.next
    obtain ⟨b1, b2⟩ := expandShapes_broadcasts hexp f1.1 f2.1
    have hl := (C46_elementwise_max _ _ _ hexp).1
    refine ⟨h', _, ?_, Good.new f3.1 (contains_congr c fun idx hv => ?_) hf12 hn12 fr nx⟩
    · simp only [Expr.host, e1, Outcome.bind_ok, e2, e3]
    · obtain ⟨p1, -⟩ := alloc_props h2 s junk (fun x hx => by have := f3.1 x hx; omega)
      rw [p1] at hv
      have hil := validIdx_length hv
      simp only [Expr.val]
      rw [g1.shape, g2.shape, Fits.val_bc hS X h₁ (t := s) (by omega) b1 hil,
        Fits.val_bc hS X h₂ (t := s) (by omega) b2 hil]

theorem dev_good (junk : Int → V) (env : Nat → Arr) {S : Nat → List Int} (hS : Sizes S)
    (X : Nat → List Int → V) (hN : ∀ i, Narrow (env i)) {e : Expr V} {s : List Int}
    (hfit : e.Fits S s) :
    ∀ h : Heap V, Holds h env S X → (∃ o, e.Dev junk env h o) ∧
      ∀ o, e.Dev junk env h o →
        ∃ h' r, o = .ok (h', r) ∧ Good h h' r s (e.val S X) ∧ Narrow r := by
  have one : ∀ (f : V → V) {e : Expr V} {s : List Int}, e.Fits S s →
      (∀ h : Heap V, Holds h env S X → (∃ o, e.Dev junk env h o) ∧
        ∀ o, e.Dev junk env h o →
          ∃ h' r, o = .ok (h', r) ∧ Good h h' r s (e.val S X) ∧ Narrow r) →
      ∀ h : Heap V, Holds h env S X →
        (∃ o o₁, e.Dev junk env h o₁ ∧ After o₁ (fun h1 a => GpuUnary f h1 a junk) o) ∧
        ∀ o, (∃ o₁, e.Dev junk env h o₁ ∧ After o₁ (fun h1 a => GpuUnary f h1 a junk) o) →
          ∃ h' r, o = .ok (h', r) ∧ Good h h' r s (fun idx => f (e.val S X idx)) ∧ Narrow r := by
    intro f e s hf ih h H
    obtain ⟨⟨o₁, d1⟩, all⟩ := ih h H
    have ff := Fits.facts hS hf
    have call : ∀ {h1 : Heap V} {a : Arr}, Good h h1 a s (e.val S X) → Narrow a →
        (∃ o, GpuUnary f h1 a junk o) ∧ ∀ o, GpuUnary f h1 a junk o →
          ∃ h' r, o = .ok (h', r) ∧ Good h h' r s (fun idx => f (e.val S X idx)) ∧ Narrow r := by
      intro h1 a g na
      have hwf : a.WF := by
        intro d hd
        have := ff.1 d.size (by rw [← g.shape]; exact List.mem_map_of_mem hd)
        omega
      obtain ⟨c1, -, c3⟩ := C84_unary_partial f h1 a junk _ hwf
        (by rw [← shape_length, g.shape]; exact ff.2.2.1)
        (by unfold Arr.numel; rw [g.shape]; exact ff.2.2.2) g.elems g.live na
      refine ⟨c1, fun o ho => ?_⟩
      obtain ⟨h', r, rfl, -, hc, hfr⟩ := c3 o ho
      obtain ⟨rfl, hn⟩ := gpuUnary_out ho
      rw [g.shape] at hc ⊢
      exact ⟨h', _, rfl, Good.new ff.1 hc g.frame g.next hfr hn,
        dense_narrow (by have := ff.2.2.2; omega)⟩
    refine ⟨?_, fun o ⟨o₂, d2, ho⟩ => ?_⟩
    · obtain ⟨h1, a, rfl, g, na⟩ := all o₁ d1
      obtain ⟨o, ho⟩ := (call g na).1
      exact ⟨o, _, d1, ho⟩
    · obtain ⟨h1, a, rfl, g, na⟩ := all o₂ d2
      exact (call g na).2 o ho
  induction hfit with
  | input i =>
    intro h H
    refine ⟨⟨_, rfl⟩, fun o ho => ?_⟩
    refine ⟨h, env i, ho, ⟨H.shape i, contains_congr (H.elems i) fun idx hv => ?_, fun _ _ => rfl,
      le_refl _, H.live i⟩, hN i⟩
    rw [H.shape i] at hv
    simp only [Expr.val, bcIdx_self hv]
  | @un f e s hf ih => exact one f hf ih
  | @scal f e s hf ih => exact one f hf ih
  | @bin left f e₁ e₂ s₁ s₂ s h₁ h₂ hlen hexp hleft hsize ih₁ ih₂ =>
    intro h H
    have f1 := Fits.facts hS h₁
    have f2 := Fits.facts hS h₂
    have f3 := Fits.facts hS (Expr.Fits.bin (f := f) h₁ h₂ hlen hexp hleft hsize)
    obtain ⟨b1, b2⟩ := expandShapes_broadcasts hexp f1.1 f2.1
    have hl := (C46_elementwise_max _ _ _ hexp).1
    have call : ∀ {h1 h2 : Heap V} {a b : Arr}, Good h h1 a s₁ (e₁.val S X) → Narrow a →
        Good h1 h2 b s₂ (e₂.val S X) → Narrow b →
        (∃ o, GpuBinary f h2 a b junk o) ∧ ∀ o, GpuBinary f h2 a b junk o →
          ∃ h' r, o = .ok (h', r) ∧
            Good h h' r s (fun idx => f (e₁.val S X idx) (e₂.val S X idx)) ∧ Narrow r := by
      intro h1 h2 a b g1 na g2 nb
      have la := g1.live
      have nn := g2.next
      have la2 : a.blk < h2.next := by omega
      have hexp' : expandShapes a.shape b.shape = .ok s := by rw [g1.shape, g2.shape]; exact hexp
      obtain ⟨c1, -, c3⟩ := C84_binary_partial f h2 a b junk _ _ s hexp'
        (by rw [g1.shape]; exact f1.1) (by rw [g2.shape]; exact f2.1) f3.2.2.1 f3.2.2.2
        ⟨_, bcShape_ok (by rw [g1.shape]; exact b1)
          (frontSafe_of_length (by rw [g1.shape]; omega))⟩
        ⟨_, bcShape_ok (by rw [g2.shape]; exact b2)
          (frontSafe_of_length (by rw [g2.shape]; omega))⟩
        (Contains.frame g1.elems g1.live g2.frame) g2.elems la2 g2.live na nb
      refine ⟨c1, fun o ho => ?_⟩
      obtain ⟨h', r, rfl, hrs, hc, hfr⟩ := c3 o ho
      obtain ⟨rfl, hn⟩ := gpuBinary_out hexp' ho
      refine ⟨h', _, rfl, Good.new f3.1 (contains_congr hc fun idx hv => ?_)
        (Frame.trans g1.frame g1.next g2.frame) (le_trans g1.next g2.next) hfr hn,
        dense_narrow (by omega)⟩
      rw [hrs] at hv
      have hil := validIdx_length hv
      rw [g1.shape, g2.shape, Fits.val_bc hS X h₁ (t := s) (by omega) b1 hil,
        Fits.val_bc hS X h₂ (t := s) (by omega) b2 hil]
    obtain ⟨⟨o₁, d1⟩, all1⟩ := ih₁ h H
    refine ⟨?_, fun o ⟨o₂, d2, ho⟩ => ?_⟩
    · obtain ⟨h1, a, rfl, g1, na⟩ := all1 o₁ d1
      obtain ⟨⟨o₂, d2⟩, all2⟩ := ih₂ h1 (H.frame g1.frame g1.next)
      obtain ⟨h2, b, rfl, g2, nb⟩ := all2 o₂ d2
      obtain ⟨o, ho⟩ := (call g1 na g2 nb).1
      exact ⟨o, _, d1, _, d2, ho⟩
    · obtain ⟨h1, a, rfl, g1, na⟩ := all1 o₂ d2
      obtain ⟨o₃, d3, ho⟩ := ho
      obtain ⟨h2, b, rfl, g2, nb⟩ := (ih₂ h1 (H.frame g1.frame g1.next)).2 o₃ d3
      exact (call g1 na g2 nb).2 o ho

/-- **C132.** Any expression built from element-wise operations, over inputs (arrays or slices) with the
same elements on the CPU and on the device: the CPU returns an array, the device can finish, and in
whatever order its threads run it returns an array of the same shape with the same elements, namely the
operations applied pointwise to the broadcast inputs; no input is changed on either side. Missing from
C132: operands of unequal rank or a first operand to be broadcast (`C132_left_operand_differs`),
expressions of more than four dimensions or 2³¹ elements (`C84_rank_five`, `C84_huge_untouched`), slices
that span 2³² elements, and the square root of integers (`C132_sqrt_differs`). -/
theorem C132_expression_partial (e : Expr V) {S : Nat → List Int} (hS : Sizes S) {s : List Int}
    (hfit : e.Fits S s) (X : Nat → List Int → V) (h g : Heap V) (env envD : Nat → Arr)
    (junk junkD : Int → V) (H : Holds h env S X) (G : Holds g envD S X)
    (hN : ∀ i, Narrow (envD i)) :
    Returns h (e.host junk env h) s (e.val S X) ∧
    (∃ o, e.Dev junkD envD g o) ∧
    ∀ o, e.Dev junkD envD g o → Returns g o s (e.val S X) := by
  refine ⟨?_, ?_⟩
  · obtain ⟨h', r, e1, g1⟩ := host_good junk env hS X hfit h H
    exact ⟨h', r, e1, g1.shape, g1.elems, g1.frame⟩
  · obtain ⟨d1, d2⟩ := dev_good junkD envD hS X hN hfit g G
    refine ⟨d1, fun o ho => ?_⟩
    obtain ⟨h', r, e1, g1, -⟩ := d2 o ho
    exact ⟨h', r, e1, g1.shape, g1.elems, g1.frame⟩

/-! ## Concrete cases -/

/-- Inputs of shapes (2,1) and (1,3). -/
def twoShapes (i : Nat) : List Int := if i = 0 then [2, 1] else [1, 3]

/-- The arrays of these shapes in `heap2 2 3`. -/
def twoArrays (i : Nat) : Arr := if i = 0 then dense 0 [2, 1] else dense 1 [1, 3]

/-- Their elements. -/
def twoElems (i : Nat) (idx : List Int) : Int :=
  if i = 0 then addr (denseDims [2, 1]).1 idx else 100 + addr (denseDims [1, 3]).1 idx

theorem twoHolds : Holds (heap2 2 3) twoArrays twoShapes twoElems where
  shape i := by unfold twoArrays twoShapes; split <;> decide +kernel
  elems i := by
    unfold twoArrays twoElems
    by_cases hi : i = 0
    · simpa only [hi, if_true] using heap2_contains0 2 3 [2, 1] (by decide)
    · simpa only [hi, if_false] using heap2_contains1 2 3 [1, 3] (by decide)
  live i := by unfold twoArrays; split <;> decide +kernel

theorem twoSizes : Sizes twoShapes where
  pos i := by unfold twoShapes; split <;> decide
  rank i := by unfold twoShapes; split <;> decide
  size i := by unfold twoShapes; split <;> decide

/-- `(a + b) * 2 - a²`. -/
def sample : Expr Int :=
  .bin true (· - ·) (.scal (· * 2) (.bin false (· + ·) (.input 0) (.input 1)))
    (.un (fun x => x * x) (.input 0))

theorem sample_fits : sample.Fits twoShapes [2, 3] :=
  .bin (s₁ := [2, 3]) (s₂ := [2, 1])
    (.scal (.bin (s₁ := [2, 1]) (s₂ := [1, 3]) (.input 0) (.input 1) rfl (by decide +kernel)
      (by simp) (by decide)))
    (.un (.input 0)) rfl (by decide +kernel) (fun _ => rfl) (by decide)

/-- The hypotheses of `C132_expression_partial` are met: (2,1) and (1,3) arrays, a result of shape
(2,3), and element (1,2) is `(1 + 102) * 2 - 1`. -/
example : Returns (heap2 2 3) (sample.host (fun _ => 7) twoArrays (heap2 2 3)) [2, 3]
      (sample.val twoShapes twoElems) ∧
    (∃ o, sample.Dev (fun _ => 9) twoArrays (heap2 2 3) o) ∧
    (∀ o, sample.Dev (fun _ => 9) twoArrays (heap2 2 3) o →
      Returns (heap2 2 3) o [2, 3] (sample.val twoShapes twoElems)) ∧
    sample.val twoShapes twoElems [1, 2] = 205 := by
  obtain ⟨h1, h2, h3⟩ := C132_expression_partial sample twoSizes sample_fits twoElems (heap2 2 3)
    (heap2 2 3) twoArrays twoArrays (fun _ => 7) (fun _ => 9) twoHolds twoHolds
    (fun i => by
      unfold twoArrays
      split
      · exact dense_narrow' 0 (by decide)
      · exact dense_narrow' 1 (by decide))
  exact ⟨h1, h2, h3, by decide +kernel⟩

/-- **C132 (violation).** `a - b` with a one-element `a` and a three-element `b`: one element on the
CPU, three on the device. -/
theorem C132_left_operand_differs :
    let e : Expr Int := .bin true (· - ·) (.input 0) (.input 1)
    let env : Nat → Arr := fun i => if i = 0 then dense 0 [1] else dense 1 [3]
    resultShape (e.host (fun _ => 0) env (heap2 1 3)) = some [1] ∧
    (∃ o, e.Dev (fun _ => 0) env (heap2 1 3) o) ∧
    ∀ o, e.Dev (fun _ => 0) env (heap2 1 3) o → resultShape o = some [3] := by
  intro e env
  obtain ⟨⟨o, ho⟩, all⟩ := C84_left_operand_broadcast
  refine ⟨by decide +kernel, ⟨o, _, rfl, _, rfl, ho⟩, fun o' ho' => ?_⟩
  obtain ⟨o₁, rfl, o₂, rfl, h3⟩ := ho'
  exact (all o' h3).1

/-! ## The square root -/

section

open Bliss.Float Bliss.Elements
open Bliss.Dispatch (Elem)

/-- `elementwise_sqrt_op::call` on the device (`arithmetic_cuda_impl.cuh:62-71`): `sqrtf` of the
element, converted to `float` first when it is an integer. `sq` is the square root of the device's
library for numbers that are not negative. -/
def sqrtDev (R : Rounding 24) (sq : ℚ → ℚ) (out : Elem) (v : Num) : Outcome (Option Num) :=
  match v with
  | .flt x => if x < 0 then castOut R out none else castOut R out (some (.flt (sq x)))
  | .int n =>
    if R.r n < 0 then castOut R out none else castOut R out (some (.flt (sq (R.r n))))

/-- **C132.** Roots of `float` elements agree, given equally rounded library roots. -/
theorem C132_sqrt_float (R : Rounding 24) (D : Rounding 53) (sq sq64 : ℚ → ℚ) (out : Elem) (x : ℚ) :
    sqrtDev R sq out (.flt x) = sqrt R D sq sq64 out (.flt x) := rfl

/-- **C132.** Roots of integer elements from 0 up to 2²² agree: on both sides the greatest integer whose
square does not exceed the element. Missing: larger elements (`C132_sqrt_differs`). -/
theorem C132_sqrt_integer_partial (R : Rounding 24) (D : Rounding 53) (sq sq64 : ℚ → ℚ)
    (hs : GoodSqrt 24 sq) (hs64 : GoodSqrt 53 sq64) (a : Elem) (ha : a ≠ .f32) (n : ℤ)
    (hn : Typed R a (.int n)) (h0 : 0 ≤ n) (h22 : n < 2 ^ 22) :
    ∃ r : ℤ, sqrtDev R sq a (.int n) = .ok (some (.int r)) ∧
      sqrt R D sq sq64 a (.int n) = .ok (some (.int r)) ∧ 0 ≤ r ∧ r * r ≤ n ∧
      n < (r + 1) * (r + 1) := by
  obtain ⟨r', e, z0, z1, z2⟩ := C125_sqrt_integer_partial R D sq sq64 hs64 a ha n hn h0 (by omega)
  refine ⟨r', ?_, e, z0, z1, z2⟩
  clear e
  obtain ⟨N, rfl⟩ := Int.eq_ofNat_of_zero_le h0
  obtain ⟨r, rfl⟩ := Int.eq_ofNat_of_zero_le z0
  have r1 : r * r ≤ N := by exact_mod_cast z1
  have r2 : N < (r + 1) * (r + 1) := by exact_mod_cast z2
  have hN : N < 2 ^ 22 := by exact_mod_cast h22
  have r3 : r + 1 ≤ 2 ^ 11 := by
    by_contra h
    have : 2 ^ 11 ≤ r := by omega
    have := Nat.mul_le_mul this this
    omega
  have hD : R.r ((N : ℤ) : ℚ) = N := by
    have h24 : |(N : ℤ)| ≤ 2 ^ 24 := by rw [abs_of_nonneg h0]; norm_num at h22 ⊢; omega
    rw [R.int _ h24, Int.cast_natCast]
  have hlow : (r : ℚ) ≤ sq N := by
    have := hs.lower N (by positivity) r 0 (by omega) (by
      simp only [zpow_zero, mul_one]
      rw [pow_two]; exact_mod_cast r1)
    simpa using this
  have hup : sq N < r + 1 := by
    have hy : ((((r + 1) * 2 ^ 12 - 1 : ℕ) : ℚ) * 2 ^ (-12 : ℤ)) = (r + 1) - 1 / 2 ^ 12 := by
      rw [Nat.cast_sub (by have : 0 < (r + 1) * 2 ^ 12 := by positivity
                           omega)]
      push_cast
      rw [show (2 : ℚ) ^ (-12 : ℤ) = 1 / 2 ^ 12 by norm_num]
      ring
    have := hs.upper N (by positivity) ((r + 1) * 2 ^ 12 - 1) (-12) (by omega) (by
      rw [hy]
      have q1 : (N : ℚ) + 1 ≤ (r + 1) * (r + 1) := by exact_mod_cast r2
      have q2 : (r : ℚ) + 1 ≤ 2 ^ 11 := by exact_mod_cast r3
      norm_num at q2 ⊢
      nlinarith)
    rw [hy] at this
    refine lt_of_le_of_lt this ?_
    norm_num
  have hfl : trunc (sq N) = r := by
    unfold trunc
    rw [if_pos (le_trans (by positivity) hlow), Int.floor_eq_iff]
    exact ⟨by exact_mod_cast hlow, by exact_mod_cast hup⟩
  have hrange : lo a ≤ (r : ℤ) ∧ (r : ℤ) ≤ hi a := by
    have h1 : (N : ℤ) ≤ hi a := by cases a <;> simp_all [Typed]
    have h2 : r ≤ N := by nlinarith
    refine ⟨le_trans (by cases a <;> simp [lo]) (Int.natCast_nonneg r), by omega⟩
  have hnn : ¬ ((N : ℚ) < 0) := by push Not; positivity
  rw [sqrtDev, hD, if_neg hnn]
  have : conv R a (.flt (sq N)) = .ok (.int r) := by
    have : conv R a (.flt (sq N)) = if lo a ≤ trunc (sq N) ∧ trunc (sq N) ≤ hi a then
        .ok (.int (trunc (sq N))) else .ub := by cases a <;> simp_all [conv]
    rw [this, hfl, if_pos hrange]
  simp only [castOut, this]
  rfl

/-- **C132 (violation).** The root of the 32-bit integer 2²⁶ − 1 is 8191 on the CPU and 8192 on the
device, which rounds the element to a `float` first. -/
theorem C132_sqrt_differs (D : Rounding 53) (sq sq64 : ℚ → ℚ) (hs : GoodSqrt 24 sq)
    (hs64 : GoodSqrt 53 sq64) :
    let R := nearestEven 24 (by norm_num)
    sqrtDev R sq .i32 (.int (2 ^ 26 - 1)) = .ok (some (.int 8192)) ∧
    sqrt R D sq sq64 .i32 (.int (2 ^ 26 - 1)) = .ok (some (.int 8191)) := by
  intro R
  constructor
  · have hR : R.r ((2 ^ 26 - 1 : ℤ) : ℚ) = 2 ^ 26 := by decide +kernel
    have hq : sq (2 ^ 26) = 8192 := by
      have h1 := hs.lower (2 ^ 26) (by norm_num) 1 13 (by norm_num) (by norm_num)
      have h2 := hs.upper (2 ^ 26) (by norm_num) 1 13 (by norm_num) (by norm_num)
      norm_num at h1 h2 ⊢
      linarith
    rw [sqrtDev, hR, if_neg (by norm_num), hq]
    have ht : trunc 8192 = 8192 := by decide +kernel
    simp [castOut, conv, ht, lo, hi]
  · obtain ⟨r, e, z0, z1, z2⟩ := C125_sqrt_integer_partial R D sq sq64 hs64 .i32 (by decide)
      (2 ^ 26 - 1) (by simp [Typed, lo, hi]) (by norm_num) (by norm_num)
    have : r = 8191 := by
      have a1 : r < 8192 := by nlinarith
      have a2 : 8190 < r := by nlinarith
      omega
    rw [e, this]

/-- The hypotheses are met: square roots as required exist, and 2²² − 1 is an `int32_t`. -/
example : (∃ sq, GoodSqrt 24 sq) ∧ (∃ sq64, GoodSqrt 53 sq64) ∧
    ∀ R : Rounding 24, Typed R .i32 (.int (2 ^ 22 - 1)) :=
  ⟨⟨_, downSqrt_good 24 (by norm_num)⟩, ⟨_, downSqrt_good 53 (by norm_num)⟩,
    fun _ => by simp [Typed, lo, hi]⟩

end

end Bliss.Gpu
