import Verif.Flag.Model
import Verif.Nd.Props
import Verif.Stat.Props
import Verif.Stat.Median

/-!
# Element-wise operations that return a new array, in the form used for chains of operations
-/

namespace Bliss.Flag

open Bliss.Nd Bliss.Stat

variable {V F : Type}

theorem wf_of_shape {a : Arr} (h : ∀ s ∈ a.shape, 0 ≤ s) : a.WF :=
  fun d hd => h d.size (List.mem_map_of_mem hd)

theorem scalar_returns (op : V → V) (h : Heap V) (a : Arr) (junk : Int → V) (A : List Int → V)
    (hwf : a.WF) (hA : h.Contains a A) (hla : a.blk < h.next) :
    Returns h (scalarOp op h a junk) a.shape (fun i => op (A i)) := by
  obtain ⟨p1, p2, p3, p4, p5, p6, p7⟩ := alloc_props h a.shape junk (shape_nonneg hwf)
  obtain ⟨h', e1, e2, e3⟩ := scalarLoop_spec op (alloc h a.shape junk).1 (alloc h a.shape junk).2 a
    p1.symm p2 (Contains.frame hA hla p7) p4 p3 (fun e => by omega)
  obtain ⟨q1, q2, q3⟩ := fresh_of_updated (h := h) p7 p5 p6 e2 e3
  refine ⟨h', (alloc h a.shape junk).2, ?_, p1, p5, q3, q1, q2⟩
  unfold scalarOp
  simp only [e1, Outcome.bind_ok, Outcome.pure_eq]

theorem unary_returns (op : V → V) (h : Heap V) (a : Arr) (junk : Int → V) (A : List Int → V)
    (hwf : a.WF) (hA : h.Contains a A) (hla : a.blk < h.next) :
    Returns h (unaryOp op h a junk) a.shape (fun i => op (A i)) := by
  obtain ⟨p1, p2, p3, p4, p5, p6, p7⟩ := alloc_props h a.shape junk (shape_nonneg hwf)
  obtain ⟨h', e1, e2, e3⟩ := unaryLoop_spec op (alloc h a.shape junk).1 (alloc h a.shape junk).2 a
    p1.symm p2 (Contains.frame hA hla p7) p4 p3 (fun e => by omega)
  obtain ⟨q1, q2, q3⟩ := fresh_of_updated (h := h) p7 p5 p6 e2 e3
  refine ⟨h', (alloc h a.shape junk).2, ?_, p1, p5, q3, q1, q2⟩
  unfold unaryOp
  simp only [e1, Outcome.bind_ok, Outcome.pure_eq]

theorem bin_returns (op : V → V → V) (h : Heap V) (a b : Arr) (junk : Int → V)
    (A B : List Int → V) (shape : List Int) (hexp : expandShapes a.shape b.shape = .ok shape)
    (hne : shape ≠ []) (hpos : ∀ s ∈ shape, 0 ≤ s) (ba : BroadcastsTo a.shape shape)
    (bb : BroadcastsTo b.shape shape) (hra : a.shape.length = shape.length)
    (hrb : b.shape.length = shape.length)
    (hA : h.Contains a A) (hB : h.Contains b B) (hla : a.blk < h.next) (hlb : b.blk < h.next) :
    Returns h (binOp op h a b junk) shape
      (fun idx => op (A (bcIdx a.shape idx)) (B (bcIdx b.shape idx))) := by
  obtain ⟨p1, p2, p3, p4, p5, p6, p7⟩ := alloc_props h shape junk hpos
  have hne' : (alloc h shape junk).2.dims ≠ [] := by
    intro e
    apply hne
    rw [← p1]; simp [Arr.shape, e]
  obtain ⟨h', e1, e2, e3⟩ := binInto_spec op (alloc h shape junk).1 (alloc h shape junk).2 a b hne'
    (by rw [p1]; exact ba) (by rw [p1]; exact bb) (by rw [p1]; exact frontSafe_of_length hra)
    (by rw [p1]; exact frontSafe_of_length hrb)
    p2 (Contains.frame hA hla p7) (Contains.frame hB hlb p7) p4 p3
    (fun e => by omega) (fun e => by omega)
  obtain ⟨q1, q2, q3⟩ := fresh_of_updated (h := h) p7 p5 p6 e2 e3
  refine ⟨h', (alloc h shape junk).2, ?_, p1, p5, q3, q1, q2⟩
  unfold binOp
  rw [hexp, Outcome.bind_ok]
  simp only [binCheck_false hexp, e1, Bool.false_eq_true, if_false, Outcome.bind_ok,
    Outcome.pure_eq]

/-- Operands of equal shape. -/
theorem bin_same (op : V → V → V) (h : Heap V) (a b : Arr) (junk : Int → V)
    (A B : List Int → V) (hs : b.shape = a.shape) (hne : a.shape ≠ [])
    (hwf : a.WF) (hA : h.Contains a A) (hB : h.Contains b B) (hla : a.blk < h.next)
    (hlb : b.blk < h.next) :
    Returns h (binOp op h a b junk) a.shape (fun idx => op (A idx) (B idx)) := by
  obtain ⟨h', r, e1, e2, e3, e4, e5, e6⟩ := bin_returns op h a b junk A B a.shape
    (by rw [hs]; exact C46_idempotent _) hne (shape_nonneg hwf)
    (broadcastsTo_self _) (by rw [hs]; exact broadcastsTo_self _) rfl (by rw [hs]) hA hB hla hlb
  refine ⟨h', r, e1, e2, e3, e4, fun i hi => ?_, e6⟩
  have hi' : ValidIdx a.shape i := by rw [← e2]; exact hi
  have := e5 i hi
  simp only [this, hs, bcIdx_self hi']

/-- An existing array with this shape and these contents. -/
structure Has (h : Heap V) (a : Arr) (shape : List Int) (A : List Int → V) : Prop where
  shape : a.shape = shape
  lt : a.blk < h.next
  contains : h.Contains a A

/-- `h'` has everything `h` has. -/
structure Ext (h h' : Heap V) : Prop where
  frame : h.Frame h'
  next : h.next ≤ h'.next

theorem Ext.refl (h : Heap V) : Ext h h := ⟨fun _ _ => rfl, le_refl _⟩

theorem Ext.trans {h h' h'' : Heap V} (a : Ext h h') (b : Ext h' h'') : Ext h h'' :=
  ⟨fun k hk => by rw [b.frame k (by have := a.next; omega), a.frame k hk],
    by have := a.next; have := b.next; omega⟩

theorem Has.mono {h h' : Heap V} {a : Arr} {s : List Int} {A : List Int → V} (x : Has h a s A)
    (e : Ext h h') : Has h' a s A :=
  ⟨x.shape, by have := e.next; have := x.lt; omega, Contains.frame x.contains x.lt e.frame⟩

theorem Has.congr {h : Heap V} {a : Arr} {s : List Int} {A B : List Int → V} (x : Has h a s A)
    (e : ∀ i, ValidIdx s i → A i = B i) : Has h a s B :=
  ⟨x.shape, x.lt, fun i hi => by rw [x.contains i hi, e i (by rw [← x.shape]; exact hi)]⟩

theorem Has.of_returns {h : Heap V} {x : Outcome (Heap V × Arr)} {s : List Int} {A : List Int → V}
    (hr : Returns h x s A) : ∃ h' r, x = .ok (h', r) ∧ Has h' r s A ∧ Ext h h' := by
  obtain ⟨h', r, e1, e2, e3, e4, e5, e6⟩ := hr
  exact ⟨h', r, e1, ⟨e2, by omega, e5⟩, ⟨e6, by omega⟩⟩

theorem Has.scalar {h : Heap V} {a : Arr} {s : List Int} {A : List Int → V} (x : Has h a s A)
    (hs : ∀ d ∈ s, 0 ≤ d) (op : V → V) (junk : Int → V) :
    ∃ h' r, scalarOp op h a junk = .ok (h', r) ∧ Has h' r s (fun i => op (A i)) ∧ Ext h h' := by
  obtain ⟨rfl, x2, x3⟩ := x
  exact Has.of_returns (scalar_returns op h a junk A (wf_of_shape hs) x3 x2)

theorem Has.unary {h : Heap V} {a : Arr} {s : List Int} {A : List Int → V} (x : Has h a s A)
    (hs : ∀ d ∈ s, 0 ≤ d) (op : V → V) (junk : Int → V) :
    ∃ h' r, unaryOp op h a junk = .ok (h', r) ∧ Has h' r s (fun i => op (A i)) ∧ Ext h h' := by
  obtain ⟨rfl, x2, x3⟩ := x
  exact Has.of_returns (unary_returns op h a junk A (wf_of_shape hs) x3 x2)

theorem Has.bin {h : Heap V} {a b : Arr} {s : List Int} {A B : List Int → V} (x : Has h a s A)
    (y : Has h b s B) (hs : ∀ d ∈ s, 0 ≤ d) (hne : s ≠ []) (op : V → V → V) (junk : Int → V) :
    ∃ h' r, binOp op h a b junk = .ok (h', r) ∧ Has h' r s (fun i => op (A i) (B i)) ∧
      Ext h h' := by
  obtain ⟨rfl, x2, x3⟩ := x
  obtain ⟨y1, y2, y3⟩ := y
  exact Has.of_returns (bin_same op h a b junk A B y1 hne (wf_of_shape hs) x3 y3 x2 y2)

/-- A row added to every row. -/
theorem Has.bin_row {h : Heap V} {a b : Arr} {t n : Int} {A B : List Int → V}
    (x : Has h a [t, n] A) (y : Has h b [1, n] B) (ht : 1 ≤ t) (hn : 1 ≤ n) (op : V → V → V)
    (junk : Int → V) :
    ∃ h' r, binOp op h a b junk = .ok (h', r) ∧
      Has h' r [t, n] (fun i => op (A i) (B [0, i.getD 1 0])) ∧ Ext h h' := by
  obtain ⟨x1, x2, x3⟩ := x
  obtain ⟨y1, y2, y3⟩ := y
  have hexp : expandShapes a.shape b.shape = .ok [t, n] := by
    rw [x1, y1]
    have hd := (C46_defined_iff [t, n] [1, n]).mpr (by
      intro i
      match i with
      | 0 => exact .inl rfl
      | 1 => exact .inr (.inr rfl)
      | i + 2 => exact .inl (by simp [dimFromEnd]))
    obtain ⟨r, hr⟩ := hd
    have := C46_elementwise_max _ _ _ hr
    have h0 := this.2 0
    have h1 := this.2 1
    match r, this.1 with
    | [p, q], _ =>
      simp only [dimFromEnd] at h0 h1
      simp at h0 h1
      rw [hr, h0, h1, Int.max_eq_left ht]
  have e : ∀ i, ValidIdx [t, n] i →
      op (A (bcIdx a.shape i)) (B (bcIdx b.shape i)) = op (A i) (B [0, i.getD 1 0]) := by
    intro i hi
    rw [x1, bcIdx_self hi, y1]
    match i, hi with
    | [p, q], hi =>
      simp only [ValidIdx, List.forall₂_cons, List.Forall₂.nil, and_true] at hi
      congr 2
      simp only [bcIdx, List.length_cons, List.length_nil, Nat.sub_self, List.drop_zero,
        List.zipWith_cons_cons, List.zipWith_nil_left, if_true, List.getD_cons_succ,
        List.getD_cons_zero]
      by_cases h1 : n = 1
      · simp [h1]; omega
      · simp [h1]
  obtain ⟨h', r, e1, e2, e3⟩ := Has.of_returns (bin_returns op h a b junk A B [t, n] hexp (by simp)
    (by intro s hs; simp at hs; omega) (by rw [x1]; exact broadcastsTo_self _)
    (by rw [y1]; exact ⟨le_refl _, .cons (.inr rfl) (.cons (.inl rfl) .nil)⟩) (by rw [x1])
    (by rw [y1]; rfl) x3 y3 x2 y2)
  exact ⟨h', r, e1, e2.congr e, e3⟩

end Bliss.Flag
