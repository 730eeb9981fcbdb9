import Verif.Stat.Props
import Mathlib.Data.List.Sort

/-!
# `median` and `count_true` (C55)

`std::nth_element` is a library function: it is a parameter constrained by its contract.
-/

namespace Bliss.Stat

open Bliss.Nd

variable {V : Type}

/-- The elements `data_ptr[0 .. n)` of a block. -/
def readBlock (h : Heap V) (blk : Nat) : Nat → Outcome (List V)
  | 0 => .ok []
  | n + 1 => do
    let l ← readBlock h blk n
    let v ← h.load blk n
    pure (l ++ [v])

/-- `*it` of an iterator into the data; past the end is undefined. -/
def deref (l : List V) (k : Nat) : Outcome V :=
  match l[k]? with
  | some v => .ok v
  | none => .ub

/-- `median` (`statistical_cpu.cpp:891-913`) of floats: `nth k l` is the data after
`std::nth_element(begin, begin + k, end)`, `avg x y` is `(x + y) / 2`. The axes are ignored, as in
the code. -/
def median (nth : Nat → List V → List V) (avg : V → V → V) (junk : Int → V) (h : Heap V) (x : Arr)
    (_axes : List Int) : Outcome V := do
  let size := x.numel.toNat
  let r ← unaryOp id h x junk
  let l ← readBlock r.1 r.2.blk size
  let l1 := nth (size / 2) l
  let m ← deref l1 (size / 2)
  if size % 2 = 0 then do
    let l2 := nth (size / 2 - 1) l1
    let m2 ← deref l2 (size / 2 - 1)
    pure (avg m m2)
  else pure m

/-- The contract of `std::nth_element`: a permutation with element `k` in its sorted place, smaller
or equal ones before, larger or equal ones after. -/
def NthContract [LinearOrder V] (nth : Nat → List V → List V) : Prop :=
  ∀ k l, k < l.length → (nth k l).Perm l ∧
    ∀ v, (nth k l)[k]? = some v →
      (∀ w ∈ (nth k l).take k, w ≤ v) ∧ (∀ w ∈ (nth k l).drop (k + 1), v ≤ w)

/-- The contract determines element `k`: it is element `k` of the sorted data. -/
theorem nth_sorted [LinearOrder V] {nth : Nat → List V → List V} (hn : NthContract nth) {k : Nat}
    {l s : List V} (hk : k < l.length) (hs : s.Pairwise (· ≤ ·)) (hp : s.Perm l) :
    (nth k l)[k]? = s[k]? := by
  obtain ⟨p, hc⟩ := hn k l hk
  have hk' : k < (nth k l).length := by rw [p.length_eq]; exact hk
  obtain ⟨c1, c2⟩ := hc (nth k l)[k] (List.getElem?_eq_getElem hk')
  generalize nth k l = m at *
  let le : V → V → Bool := fun a b => decide (a ≤ b)
  have htr : ∀ a b c : V, le a b = true → le b c = true → le a c = true := by
    intro a b c h1 h2
    simp only [le, decide_eq_true_eq] at *
    exact le_trans h1 h2
  have hto : ∀ a b : V, (le a b || le b a) = true := by
    intro a b
    simp only [le, Bool.or_eq_true, decide_eq_true_eq]
    exact le_total a b
  let s' := (m.take k).mergeSort le ++ m[k] :: (m.drop (k + 1)).mergeSort le
  have hs' : s'.Pairwise (· ≤ ·) := by
    rw [List.pairwise_append]
    have q1 := List.pairwise_mergeSort htr hto (m.take k)
    have q2 := List.pairwise_mergeSort htr hto (m.drop (k + 1))
    simp only [le, decide_eq_true_eq] at q1 q2
    refine ⟨q1, ?_, ?_⟩
    · rw [List.pairwise_cons]
      exact ⟨fun w hw => c2 w ((List.mergeSort_perm _ _).mem_iff.mp hw), q2⟩
    · intro a ha b hb
      have ha' := c1 a ((List.mergeSort_perm _ _).mem_iff.mp ha)
      rcases List.mem_cons.mp hb with rfl | hb
      · exact ha'
      · exact le_trans ha' (c2 b ((List.mergeSort_perm _ _).mem_iff.mp hb))
  have hp' : s'.Perm m := by
    have : m = m.take k ++ m[k] :: m.drop (k + 1) := by
      rw [List.getElem_cons_drop, List.take_append_drop]
    conv_rhs => rw [this]
    exact (List.mergeSort_perm _ _).append ((List.mergeSort_perm _ _).cons _)
  have hss : s = s' := by
    apply List.Perm.eq_of_pairwise (le := (· ≤ ·)) _ hs hs' (hp.trans (p.symm.trans hp'.symm))
    intro a b _ _ h1 h2
    exact le_antisymm h1 h2
  rw [hss]
  have hlen : ((m.take k).mergeSort le).length = k := by
    rw [List.length_mergeSort, List.length_take]; omega
  show _ = ((m.take k).mergeSort le ++ m[k] :: (m.drop (k + 1)).mergeSort le)[k]?
  rw [List.getElem?_append_right (by omega), hlen]
  simp [hk']

theorem readBlock_eq (h : Heap V) (blk n : Nat) (f : Nat → V)
    (hf : ∀ k < n, h.mem blk (k : Int) = some (f k)) :
    readBlock h blk n = .ok ((List.range n).map f) := by
  induction n with
  | zero => rfl
  | succ n ih =>
    simp only [readBlock, ih (fun k hk => hf k (by omega)), Outcome.bind_ok, Heap.load,
      Buf.load_some (hf n (by omega)), Outcome.pure_eq, List.range_succ, List.map_append,
      List.map_cons, List.map_nil]

/-- The dense copy lists every element once. -/
theorem copy_list {x : Arr} (h : Heap V) (junk : Int → V) (X : List Int → V) (hwf : x.WF)
    (hX : h.Contains x X) (hb : x.blk < h.next) :
    ∃ h' r l, unaryOp id h x junk = .ok (h', r) ∧
      readBlock h' r.blk x.numel.toNat = .ok (l.map X) ∧ Enumerates x.shape [] [0] l := by
  obtain ⟨p1, p2, p3, p4, p5, p6, p7⟩ := alloc_props h x.shape junk (shape_nonneg hwf)
  have hAf : (alloc h x.shape junk).1.Contains x X := Contains.frame hX hb p7
  obtain ⟨h', e1, ⟨u1, _⟩, _⟩ := unaryLoop_spec id (alloc h x.shape junk).1
    (alloc h x.shape junk).2 x p1.symm p2 hAf p4 p3 (by intro he; rw [p5] at he; omega)
  have hdims : (alloc h x.shape junk).2.dims = (denseDims x.shape).1 := rfl
  have hnum : x.numel = (denseDims x.shape).2 := by rw [denseDims_numel]; rfl
  have hsur : ∀ k : Nat, ∃ idx, k < x.numel.toNat →
      ValidIdx x.shape idx ∧ addr (denseDims x.shape).1 idx = (k : Int) := by
    intro k
    by_cases hk : k < x.numel.toNat
    · obtain ⟨i, hi⟩ := dense_surj (shape_nonneg hwf) (k : Int) (by omega) (by rw [← hnum]; omega)
      exact ⟨i, fun _ => hi⟩
    · exact ⟨[], fun h => absurd h hk⟩
  choose f hf using hsur
  refine ⟨h', (alloc h x.shape junk).2, (List.range x.numel.toNat).map f, ?_, ?_, ?_, ?_⟩
  · unfold unaryOp
    simp only [e1, Outcome.bind_ok, Outcome.pure_eq]
  · rw [List.map_map]
    apply readBlock_eq
    intro k hk
    obtain ⟨v1, v2⟩ := hf k hk
    have := u1 (f k) (by rw [p1]; exact v1)
    simp only [Heap.get] at this
    rw [hdims, v2] at this
    exact this
  · refine List.Nodup.map_on ?_ List.nodup_range
    intro i hi j hj he
    simp only [List.mem_range] at hi hj
    have h1 := (hf i hi).2
    have h2 := (hf j hj).2
    rw [he, h2] at h1
    omega
  · intro j
    simp only [List.mem_map, List.mem_range]
    constructor
    · rintro ⟨k, hk, rfl⟩
      exact ⟨(hf k hk).1, by simp [remaining, orUnit]⟩
    · rintro ⟨hj, _⟩
      obtain ⟨b1, b2⟩ := dense_bounds hj
      refine ⟨(addr (denseDims x.shape).1 j).toNat, by rw [hnum]; omega, ?_⟩
      obtain ⟨v1, v2⟩ := hf (addr (denseDims x.shape).1 j).toNat (by rw [hnum]; omega)
      exact dense_inj v1 hj (by rw [v2]; omega)

/-- **C55**. `median` of a non-empty array of any layout returns the middle element of its sorted
elements, or, for an even count, the average of the two middle ones — whichever implementation of
`std::nth_element` is used. Full property: also with `axes`, and for every array; missing: the axes
are ignored (`C55_axes_ignored`) and an empty array is undefined behaviour (`C55_empty_ub`). -/
theorem C55_median_partial [LinearOrder V] {nth : Nat → List V → List V} (hn : NthContract nth)
    (avg : V → V → V) (junk : Int → V) (h : Heap V) (x : Arr) (axes : List Int) (X : List Int → V)
    (hwf : x.WF) (hX : h.Contains x X) (hb : x.blk < h.next)
    {l : List (List Int)} (hl : Enumerates x.shape [] [0] l) (hne : l ≠ [])
    {s : List V} (hs : s.Pairwise (· ≤ ·)) (hp : s.Perm (l.map X)) :
    ∃ hi, s[s.length / 2]? = some hi ∧
      (s.length % 2 = 1 → median nth avg junk h x axes = .ok hi) ∧
      (s.length % 2 = 0 → ∃ lo, s[s.length / 2 - 1]? = some lo ∧
        median nth avg junk h x axes = .ok (avg hi lo)) := by
  obtain ⟨h', r, m, e1, e2, hE⟩ := copy_list h junk X hwf hX hb
  have hpm := (enumerates_perm hl hE).map X
  have hlen : s.length = x.numel.toNat := by
    have h1 : ∀ n, ∀ l', readBlock h' r.blk n = .ok l' → l'.length = n := by
      intro n
      induction n with
      | zero => intro l' he; simp [readBlock] at he; subst he; rfl
      | succ n ih =>
        intro l' he
        simp only [readBlock] at he
        cases h1 : readBlock h' r.blk n with
        | ub => rw [h1] at he; cases he
        | throws e => rw [h1] at he; cases he
        | ok l1 =>
          rw [h1] at he
          cases h2 : h'.load r.blk (n : Int) with
          | ub => rw [h2] at he; cases he
          | throws e => rw [h2] at he; cases he
          | ok v =>
            rw [h2] at he
            simp only [Outcome.bind_ok, Outcome.pure_eq, Outcome.ok.injEq] at he
            subst he
            simp [ih l1 h1]
    rw [hp.length_eq, hpm.length_eq]
    exact h1 _ _ e2
  rw [← hlen] at e2
  have hml : (m.map X).length = s.length := by rw [← hpm.length_eq, hp.length_eq]
  have hpos : 0 < s.length := by
    rw [hp.length_eq, List.length_map]; exact List.length_pos_of_ne_nil hne
  have hk : s.length / 2 < s.length := by omega
  refine ⟨s[s.length / 2], List.getElem?_eq_getElem hk, ?_⟩
  have a1 := nth_sorted hn (k := s.length / 2) (l := m.map X) (by omega) hs (hp.trans hpm)
  rw [List.getElem?_eq_getElem hk] at a1
  have d1 : deref (nth (s.length / 2) (m.map X)) (s.length / 2) = .ok s[s.length / 2] := by
    simp [deref, a1]
  constructor
  · intro hodd
    unfold median
    simp only [e1, Outcome.bind_ok, e2, ← hlen, d1]
    rw [if_neg (by omega)]
    rfl
  · intro heven
    have hk2 : s.length / 2 - 1 < s.length := by omega
    have p1 := (hn (s.length / 2) (m.map X) (by omega)).1
    have a2 := nth_sorted hn (k := s.length / 2 - 1) (l := nth (s.length / 2) (m.map X))
      (by rw [p1.length_eq]; omega) hs ((hp.trans hpm).trans p1.symm)
    rw [List.getElem?_eq_getElem hk2] at a2
    have d2 : deref (nth (s.length / 2 - 1) (nth (s.length / 2) (m.map X))) (s.length / 2 - 1) =
        .ok s[s.length / 2 - 1] := by
      simp [deref, a2]
    refine ⟨s[s.length / 2 - 1], List.getElem?_eq_getElem hk2, ?_⟩
    unfold median
    simp only [e1, Outcome.bind_ok, e2, ← hlen, d1, d2]
    rw [if_pos heven]
    rfl

/-- **C55 (axes)**. The `axes` argument changes nothing: the median of all elements is returned. -/
theorem C55_axes_ignored (nth : Nat → List V → List V) (avg : V → V → V) (junk : Int → V)
    (h : Heap V) (x : Arr) (axes : List Int) :
    median nth avg junk h x axes = median nth avg junk h x [] := rfl

/-- **C55 (empty array)**. The median of an array without elements is undefined behaviour, for any
`nth_element` that adds no elements. -/
theorem C55_empty_ub (nth : Nat → List V → List V) (hnth : ∀ k, nth k [] = []) (avg : V → V → V)
    (junk : Int → V) (h : Heap V) (x : Arr) (axes : List Int) (X : List Int → V) (hwf : x.WF)
    (hX : h.Contains x X) (hb : x.blk < h.next) (h0 : x.numel = 0) :
    median nth avg junk h x axes = .ub := by
  obtain ⟨h', r, m, e1, e2, _⟩ := copy_list h junk X hwf hX hb
  rw [h0] at e2
  simp only [Int.toNat_zero, readBlock, Outcome.ok.injEq] at e2
  unfold median
  simp [e1, h0, readBlock, hnth, deref]

/-- Sorting is an `nth_element`. -/
def sortNth (_ : Nat) (l : List ℚ) : List ℚ := l.insertionSort (· ≤ ·)

theorem sortNth_contract : NthContract sortNth := by
  intro k l hk
  have hs : (sortNth k l).Pairwise (· ≤ ·) := by
    exact List.pairwise_insertionSort _ l
  refine ⟨List.perm_insertionSort _ _, ?_⟩
  intro v hv
  obtain ⟨hk', rfl⟩ := List.getElem?_eq_some_iff.mp hv
  have e : sortNth k l = (sortNth k l).take k ++ (sortNth k l)[k] :: (sortNth k l).drop (k + 1) := by
    rw [List.getElem_cons_drop, List.take_append_drop]
  have hs2 := hs
  rw [e, List.pairwise_append, List.pairwise_cons] at hs2
  exact ⟨fun w hw => hs2.2.2 w hw _ List.mem_cons_self, hs2.2.1.1⟩

/-- The value of an outcome, for concrete examples. -/
def okVal {α : Type} : Outcome α → Option α
  | .ok a => some a
  | _ => none

-- a transposed view of four elements: median of 4, 1, 9, 2 is 3; of three elements it is the middle
example : okVal (median sortNth (fun x y => (x + y) / 2) (fun _ => 0) (heap1 [4, 1, 9, 2])
    ⟨0, [⟨2, 1, 0⟩, ⟨2, 2, 0⟩]⟩ []) = some 3 := by decide +kernel
example : okVal (median sortNth (fun x y => (x + y) / 2) (fun _ => 0) (heap1 [4, 1, 9])
    ⟨0, [⟨3, 1, 0⟩]⟩ []) = some 4 := by decide +kernel

/-! ## count_true -/

/-- Loop dimensions of `count_true`. -/
def countDims (a : Arr) : List (LoopDim Int) :=
  a.dims.map (fun d => { size := d.size, stride := d.stride, reset := d.size * d.stride })

theorem countDims_dot (ds : List Dim) (idx : List Int) :
    dot (ds.map (fun d => ({ size := d.size, stride := d.stride, reset := d.size * d.stride } :
      LoopDim Int))) idx = sdot (ds.map Dim.stride) idx := by
  induction ds generalizing idx with
  | nil => cases idx <;> rfl
  | cons d ds ih => cases idx <;> simp [dot, sdot, ih]

/-- **C53 (count)**. `count_true` of a view is the number of its elements that are not zero, each
element of the view counted once, whatever its layout. -/
theorem C53_count_true (nonzero : V → Bool) (h : Heap V) (a : Arr) (X : List Int → V) (hwf : a.WF)
    (hX : h.Contains a X) {l : List (List Int)} (hl : Enumerates a.shape [] [0] l) :
    countTrue nonzero h a = .ok (l.countP (fun j => nonzero (X j)) : Int) := by
  have hsz : (countDims a).map LoopDim.size = a.shape := by
    simp [countDims, Arr.shape, Function.comp_def]
  have hnum : a.numel.toNat = cells (countDims a) := by
    have := cells_eq (countDims a) (by
      intro d hd
      simp only [countDims, List.mem_map] at hd
      obtain ⟨o, ho, rfl⟩ := hd
      exact hwf o ho)
    rw [hsz] at this
    unfold Arr.numel
    omega
  have hz : a.dims.map (fun _ => (0 : Int)) = zeros (countDims a) := by
    rw [zeros_eq]; simp [countDims, Function.comp_def]
  have haddr : ∀ k, a.base + dot (countDims a) (unravel (countDims a) k)
      = addr a.dims (unravel (countDims a) k) := by
    intro k
    rw [addr_eq _ _ (by rw [unravel_length]; simp [countDims]), countDims, countDims_dot]; rfl
  have hm : Enumerates a.shape [] [0] ((List.range (cells (countDims a))).map (unravel (countDims a))) := by
    constructor
    · refine List.Nodup.map_on ?_ List.nodup_range
      intro i hi j hj he
      simp only [List.mem_range] at hi hj
      exact unravel_inj hi hj he
    · intro j
      simp only [List.mem_map, List.mem_range]
      constructor
      · rintro ⟨k, hk, rfl⟩
        exact ⟨valid_unravel hsz hk, by simp [remaining, orUnit]⟩
      · rintro ⟨hj, _⟩
        have hb : InBox (countDims a) j := by rw [inBox_iff, hsz]; exact hj
        exact ⟨_, ravel_lt hb, unravel_ravel hb⟩
  rw [(enumerates_perm hl hm).countP_eq]
  have hcount : ∀ n, ((List.range (n + 1)).map (unravel (countDims a))).countP
      (fun j => nonzero (X j)) = ((List.range n).map (unravel (countDims a))).countP
      (fun j => nonzero (X j)) + if nonzero (X (unravel (countDims a) n)) then 1 else 0 := by
    intro n
    rw [List.range_succ, List.map_append, List.countP_append]
    congr 1
    simp [List.countP_cons]
  obtain ⟨st, e1, e2, _⟩ := forLoop_inv (n := cells (countDims a))
    (s := ((0 : Int), zeros (countDims a), a.base))
    (body := fun _ (st : Int × List Int × Int) => do
      let v ← h.load a.blk st.2.2
      let c := odoB 1 (countDims a) st.2.1 st.2.2
      pure (if nonzero v then st.1 + 1 else st.1, c.1, c.2.1))
    (fun n st => st.1 = (((List.range n).map (unravel (countDims a))).countP
        (fun j => nonzero (X j)) : Nat) ∧
      (n < cells (countDims a) → st.2.1 = unravel (countDims a) n ∧
        st.2.2 = a.base + dot (countDims a) (unravel (countDims a) n)))
    ⟨by simp, fun _ => ⟨(unravel_zero _).symm, by rw [unravel_zero, dot_zeros, add_zero]⟩⟩
    (by
      rintro n ⟨c, idx, p⟩ hn ⟨i1, i2⟩
      obtain ⟨rfl, rfl⟩ := i2 hn
      have hv := hX _ (valid_unravel hsz hn)
      simp only [Heap.get] at hv
      rw [← haddr] at hv
      simp only at i1
      refine ⟨(if nonzero (X (unravel (countDims a) n)) then c + 1 else c,
        (odoB 1 (countDims a) (unravel (countDims a) n)
          (a.base + dot (countDims a) (unravel (countDims a) n))).1,
        (odoB 1 (countDims a) (unravel (countDims a) n)
          (a.base + dot (countDims a) (unravel (countDims a) n))).2.1), ?_, ?_, ?_⟩
      · simp only [Heap.load, Buf.load_some hv, Outcome.bind_ok, Outcome.pure_eq]
      · rw [hcount]
        simp only [i1]
        split <;> simp
      · intro hn1
        have hpos := pos_of_cells_pos (ld := countDims a) (by omega)
        have hr : ResetB (countDims a) := by
          intro d hd
          refine ⟨hpos d hd, ?_⟩
          simp only [countDims, List.mem_map] at hd
          obtain ⟨o, ho, rfl⟩ := hd
          simp
        cases hlast : (countDims a).getLast? with
        | none =>
          rw [List.getLast?_eq_none_iff] at hlast
          rw [hlast] at hn1
          simp [cells] at hn1
        | some e =>
          have hbox := unravel_inBox hn
          have hlt : (unravel (countDims a) n).getLastD 0 + (1 : Nat) ≤ e.size := by
            have key : ∀ (ld : List (LoopDim Int)) (is : List Int), InBox ld is →
                ld.getLast? = some e → is.getLastD 0 < e.size := by
              intro ld
              induction ld with
              | nil => intro is _ h; simp at h
              | cons d ds ih =>
                intro is hb hl
                cases is with
                | nil => exact absurd hb (by simp [InBox])
                | cons i is =>
                  obtain ⟨b1, b2, b3⟩ := hb
                  cases ds with
                  | nil =>
                    have : is = [] := b3
                    subst this
                    simp at hl; subst hl
                    simpa using b2
                  | cons e' ds =>
                    have := ih is b3 (by simpa [List.getLast?_cons_cons] using hl)
                    cases is with
                    | nil => exact absurd b3 (by simp [InBox])
                    | cons j is => simpa using this
            have := key _ _ hbox hlast
            push_cast
            omega
          have := (odoB_step hr hlast a.base hn (c := 1) (by omega) hlt).2
          simp only [Nat.cast_one, hn1, if_true] at this
          rw [this]
          exact ⟨rfl, rfl⟩)
  unfold countTrue
  rw [hnum, hz]
  exact (congrArg (· >>= fun r : Int × List Int × Int => pure r.1) e1).trans (by simp [e2])

example : okVal (countTrue (fun v : ℚ => decide (v ≠ 0)) (heap1 [0, 5, 7, 0, 1, 0])
    ⟨0, [⟨2, 3, 0⟩, ⟨2, 1, 1⟩]⟩) = some 3 := by decide +kernel

end Bliss.Stat
