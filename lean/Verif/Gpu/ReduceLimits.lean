import Verif.Gpu.ReduceMore

/-!
# C85: what the device reductions do outside the contract
-/

namespace Bliss.Gpu

open Bliss.Nd Bliss.Stat

variable {V Acc L σ : Type}

/-! ## Offsets -/

/-- The same view moved to the beginning of the allocation. -/
def dropOffsets (a : Arr) : Arr := { a with dims := a.dims.map fun d => { d with offset := 0 } }

theorem drop_shape (a : Arr) : (dropOffsets a).shape = a.shape := by
  simp [dropOffsets, Arr.shape, Function.comp_def]

theorem drop_strides (a : Arr) : (dropOffsets a).strides = a.strides := by
  simp [dropOffsets, Arr.strides, Function.comp_def]

theorem drop_length (a : Arr) : (dropOffsets a).dims.length = a.dims.length := by
  simp [dropOffsets]

theorem drop_allAxes (a : Arr) (axes : List Int) :
    allAxes (dropOffsets a) axes = allAxes a axes := by
  unfold allAxes
  rw [drop_length]

theorem drop_count (a : Arr) (axes : List Int) : count (dropOffsets a) axes = count a axes := by
  unfold count reducedCount
  rw [drop_allAxes, drop_shape]

theorem drop_flags (a : Arr) (axes : List Int) :
    axisFlags (dropOffsets a) axes = axisFlags a axes := by
  unfold axisFlags
  rw [drop_allAxes, drop_length]

theorem drop_outShape (a : Arr) (axes : List Int) :
    outShape (dropOffsets a) axes = outShape a axes := by
  unfold outShape
  rw [drop_shape, drop_length]

theorem drop_elementAt (a : Arr) : elementAt (dropOffsets a) = elementAt a := by
  funext i
  unfold elementAt
  rw [drop_strides]
  rfl

theorem drop_oneOut (a out : Arr) (axes : List Int)
    (item : List Nat → L → Acc → RProg V Acc (L × Acc)) (zero : Acc) (comp : L) (norm : Acc → Acc)
    (merge : Acc → Acc → Acc) (write : Acc → V) :
    oneOut (dropOffsets a) out axes item zero comp norm merge write =
      oneOut a out axes item zero comp norm merge write := by
  unfold oneOut
  rw [drop_shape, drop_flags, drop_count]

theorem drop_plain (a : Arr) (step : L → Acc → V → L × Acc) :
    plainItem (dropOffsets a) step = plainItem a step := by
  unfold plainItem
  rw [drop_elementAt]

theorem drop_masked (a m : Arr) (step : L → Acc → V → L × Acc) :
    maskedItem (dropOffsets a) m step = maskedItem a m step := by
  unfold maskedItem
  rw [drop_elementAt]

/-- **C85 violated: offsets.** The device reductions ignore the offset of a view: reducing a slice
reduces the same-shaped piece at the beginning of the allocation instead. -/
theorem C85_offset_ignored (o : GpuOps V) (h : Heap V) (hm : Heap UInt8) (a m : Arr)
    (axes : List Int) (junk : Int → V) (r : Outcome (Heap V × Arr)) :
    (∀ sh, GpuReduce (fun out => sumKernel o a out axes) h a axes junk sh r ↔
      GpuReduce (fun out => sumKernel o (dropOffsets a) out axes) h (dropOffsets a) axes junk sh r) ∧
    (∀ sh, GpuReduce (fun out => meanKernel o a out axes) h a axes junk sh r ↔
      GpuReduce (fun out => meanKernel o (dropOffsets a) out axes) h (dropOffsets a) axes junk sh r) ∧
    (∀ root sh, GpuReduce (fun out => devKernel o root a out axes) h a axes junk sh r ↔
      GpuReduce (fun out => devKernel o root (dropOffsets a) out axes) h (dropOffsets a) axes junk
        sh r) ∧
    (∀ sh, GpuReduce (fun out => maxKernel o a out axes) h a axes junk sh r ↔
      GpuReduce (fun out => maxKernel o (dropOffsets a) out axes) h (dropOffsets a) axes junk sh r) ∧
    ∀ op sh, GpuMasked (fun out => maskedKernel o op a m out axes) h hm a axes junk sh r ↔
      GpuMasked (fun out => maskedKernel o op (dropOffsets a) m out axes) h hm (dropOffsets a) axes
        junk sh r := by
  refine ⟨fun sh => ?_, fun sh => ?_, fun root sh => ?_, fun sh => ?_, fun op sh => ?_⟩
  all_goals
    simp only [GpuReduce, GpuMasked, sumKernel, meanKernel, devKernel, maxKernel, maskedKernel,
      drop_oneOut, drop_plain, drop_masked, drop_allAxes, drop_outShape, drop_length, drop_count]

/-- Allocation `1 5 7`. -/
def offsetHeap : Heap ℚ := ⟨fun b => if b = 0 then fun i =>
  if i = 0 then some 1 else if i = 1 then some 5 else if i = 2 then some 7 else none
  else fun _ => none, 1⟩

/-- The slice `5 7` of it. -/
def offsetView : Arr := ⟨0, [⟨2, 1, 1⟩]⟩

/-- **C85 violated, concretely.** The sum of the slice `5 7` of `1 5 7` on the device is 6 under
every schedule; on the CPU it is 12. -/
theorem C85_slice_sum_wrong (sqrt : ℚ → ℚ) (junk : Int → ℚ) (sh : Nat → Nat → ℚ) :
    (∃ o, GpuReduce (fun out => sumKernel (gpuRat sqrt) offsetView out []) offsetHeap offsetView []
      junk sh o) ∧
    ∀ o, GpuReduce (fun out => sumKernel (gpuRat sqrt) offsetView out []) offsetHeap offsetView []
        junk sh o →
      ∃ h' r, o = .ok (h', r) ∧ h'.get r [0] = some 6 ∧
        ∃ h'' r', sum (ratOps sqrt) offsetView [] junk offsetHeap = .ok (h'', r') ∧
          h''.get r' [0] = some 12 := by
  let X : List Int → ℚ := fun j => if j = [0] then 1 else 5
  have hv : ∀ (n : Int) j, ValidIdx [n] j → ∃ x, j = [x] ∧ 0 ≤ x ∧ x < n := by
    intro n j hj
    cases hj with
    | cons h1 h2 =>
      cases h2
      exact ⟨_, rfl, h1.1, h1.2⟩
  have hin : DeviceInput offsetHeap (dropOffsets offsetView) [] :=
    ⟨⟨by simp, by simp⟩, by decide, by decide, by decide, by decide⟩
  have hX : offsetHeap.Contains (dropOffsets offsetView) X := by
    intro j hj
    obtain ⟨x, rfl, h0, h1⟩ := hv 2 j hj
    have : x = 0 ∨ x = 1 := by omega
    rcases this with rfl | rfl <;> rfl
  obtain ⟨R, ⟨⟨o, ho⟩, -, r3⟩, r4⟩ := C85_sum_partial sqrt offsetHeap (dropOffsets offsetView) []
    junk sh X ⟨fun _ _ => none, 0⟩ hin hX
  have hiff := fun o => (C85_offset_ignored (gpuRat sqrt) offsetHeap ⟨fun _ _ => none, 0⟩ offsetView
    offsetView [] junk o).1 sh
  refine ⟨⟨o, (hiff o).2 ho⟩, fun o ho => ?_⟩
  obtain ⟨h', r, rfl, e1, -, -, e2, -⟩ := r3 o ((hiff o).1 ho)
  have hz : ValidIdx [1] [(0 : Int)] := .cons ⟨le_refl _, by decide⟩ .nil
  have hl : Enumerates [2] [] [(0 : Int)] [[0], [1]] := by
    refine ⟨by decide, fun j => ?_⟩
    simp only [remaining, if_true, orUnit, and_true, List.mem_cons, List.not_mem_nil, or_false]
    constructor
    · rintro (rfl | rfl)
      · exact .cons ⟨by decide, by decide⟩ .nil
      · exact .cons ⟨by decide, by decide⟩ .nil
    · intro hj
      obtain ⟨x, rfl, h0, h1⟩ := hv 2 j hj
      have : x = 0 ∨ x = 1 := by omega
      rcases this with rfl | rfl <;> simp
  refine ⟨h', r, rfl, ?_, ?_⟩
  · have h1 := e2 [0] (by rw [e1]; exact hz)
    rw [h1, r4 [0] hz _ hl]
    norm_num [X]
  · have hX' : offsetHeap.Contains offsetView (fun j => if j = [0] then 5 else 7) := by
      intro j hj
      obtain ⟨x, rfl, h0, h1⟩ := hv 2 j hj
      have : x = 0 ∨ x = 1 := by omega
      rcases this with rfl | rfl <;> rfl
    have hax : GoodAxes offsetView [] := ⟨by simp, by simp⟩
    obtain ⟨⟨h'', r', c1, c2, -, -, c3, -⟩, c4⟩ := C53_sum (ratOps sqrt) offsetView [] junk offsetHeap
      _ hax (by intro d hd; simp [offsetView] at hd; subst hd; decide) hX' (by decide)
    refine ⟨h'', r', c1, ?_⟩
    have h1 := c3 [0] (by rw [c2]; exact hz)
    rw [h1]
    have hp := enumerates_perm (c4 [0] hz) hl
    have e := foldl_add_sum (fun j : List Int => if j = [0] then (5 : ℚ) else 7)
      (order offsetView.shape [] [0]) 0
    have : (order offsetView.shape [] [0]).foldl
        (fun acc j => (ratOps sqrt).addV acc (if j = [0] then (5 : ℚ) else 7)) (ratOps sqrt).zeroV =
        12 := by
      refine e.trans ?_
      rw [(hp.map _).sum_eq]
      norm_num
    exact congrArg some this

/-! ## More than four dimensions -/

theorem rank_fault (K : RKernel V Acc L σ) (h1 : Heap V) (hm : Heap UInt8) (sh : Nat → Nat → Acc)
    {ρ : Type} (r : ρ) (hrank : 4 < K.shape.length) (hn : 0 < K.n) (hnum : 0 < K.numel) :
    RLaunch K h1 hm sh r .ub := by
  have hG : 0 < RKernel.gridSize K.numel := by unfold RKernel.gridSize; omega
  have hB : 0 < RKernel.blockSize K.n := by
    obtain ⟨m, _, hm⟩ := RKernel.blockSize_pow hn
    rw [hm]; exact Nat.two_pow_pos m
  refine .fault (.step ⟨0, hG⟩ (l' := ⟨fun _ => .fault, []⟩)
    (s' := reduceMem h1 hm (RKernel.blockSize K.n) (RKernel.gridSize K.numel) sh) ?_
    (.fault ⟨0, hG⟩ ?_))
  · have hp : K.phases 0 (RKernel.blockSize K.n) (RKernel.gridSize K.numel) =
        [fun _ _ => .fault] := by
      unfold RKernel.phases
      rw [if_pos (.inl hrank)]
    simp only [RKernel.blocks, BState.start, hp]
    exact .barrier (fun _ => K.comp) (fun _ => rfl)
  · rw [Function.update_self]
    exact .fault ⟨0, hB⟩ .fault

/-- **C85 violated: five dimensions.** Every device reduction of an array with more than four
dimensions overflows the index arrays of the kernel. -/
theorem C85_rank_five (o : GpuOps V) (h : Heap V) (a : Arr) (axes : List Int) (junk : Int → V)
    (hax : GoodAxes a axes) (hpos : ∀ s ∈ a.shape, 0 < s) (hrank : 4 < a.shape.length) :
    (∀ sh, GpuReduce (fun out => sumKernel o a out axes) h a axes junk sh .ub) ∧
    (∀ sh, GpuReduce (fun out => meanKernel o a out axes) h a axes junk sh .ub) ∧
    (∀ root sh, GpuReduce (fun out => devKernel o root a out axes) h a axes junk sh .ub) ∧
    ∀ sh, GpuReduce (fun out => maxKernel o a out axes) h a axes junk sh .ub := by
  have hp := out_pos hax hpos
  have hnum : 0 < (alloc h (outShape a axes) junk).2.numel.toNat := by
    refine numel_pos ?_
    rw [(alloc_props h (outShape a axes) junk (fun s hs => (hp s hs).le)).1]
    exact hp
  refine ⟨fun sh => ?_, fun sh => ?_, fun root sh => ?_, fun sh => ?_⟩
  all_goals
    unfold GpuReduce
    rw [axes_ok hax]
    exact rank_fault _ _ _ _ _ hrank (n_pos hax hpos) hnum

/-! ## Nothing to reduce -/

theorem empty_launch (K : RKernel V Acc L σ) (hn : K.n = 0) (s : Mem RAddr (RCell V Acc)) :
    ¬ Exec BlockStep K.blocks s .ub ∧ Terminates BlockStep K.blocks s ∧
    (∃ s', Completes BlockStep K.blocks s s') ∧
    ∀ s', Completes BlockStep K.blocks s s' → s' = s := by
  have hB : RKernel.blockSize K.n = 0 := by rw [hn]; rfl
  have hemp : IsEmpty (Fin (RKernel.blockSize K.n)) := by rw [hB]; exact Fin.isEmpty
  have hps : ∀ ps : List (Phase (Fin (RKernel.blockSize K.n)) RAddr (RCell V Acc) L),
      PhasesOk ps (fun _ t => t = s) (fun _ t => t = s) := by
    intro ps
    induction ps with
    | nil => exact fun _ _ h => h
    | cons p ps ih =>
      refine ⟨fun _ t => t = s, fun x t ht => ?_, ih⟩
      refine ⟨fun _ _ => False, fun _ _ => False, fun _ _ h => h, fun _ _ _ _ h => h.elim,
        fun i => hemp.elim i, fun i => hemp.elim i, fun y s' _ hs => ?_⟩
      rw [← ht]
      exact funext fun a => hs a fun _ h => h
  obtain ⟨h1, h2, h3, h4⟩ := block_launch
    (phases := fun b : Fin (RKernel.gridSize K.numel) =>
      K.phases b (RKernel.blockSize K.n) (RKernel.gridSize K.numel))
    (X := fun _ _ => False) (W := fun _ _ => False) (x := fun _ _ => K.comp) (s := s)
    (fun _ _ h => h) (fun _ _ _ _ h => h.elim) (fun _ _ _ i => hemp.elim i)
    (fun _ _ _ => ⟨0, fun i => hemp.elim i⟩) (fun _ => hps _) (fun _ => rfl)
  exact ⟨h1, h2, h3, fun s' hs' => funext fun a => (h4 s' hs').2 a fun _ h => h⟩

/-- **C85 violated: empty reductions.** When a reduced dimension is empty the launch has no threads:
nothing is computed, and the result is whatever the new memory held (`junk`). On the CPU a sum
of nothing is 0 (`C53_sum`). -/
theorem C85_empty_reduction (o : GpuOps V) (h : Heap V) (a : Arr) (axes : List Int)
    (junk : Int → V) (sh : Nat → Nat → V) (hax : GoodAxes a axes) (hwf : a.WF)
    (hempty : count a axes = 0) :
    (∃ r, GpuReduce (fun out => sumKernel o a out axes) h a axes junk sh r) ∧
    ∀ r, GpuReduce (fun out => sumKernel o a out axes) h a axes junk sh r →
      Returns h r (orUnit 1 (remaining axes a.shape))
        (fun i => junk (rowMajor (orUnit 1 (remaining axes a.shape)) i)) := by
  have hnn : ∀ s ∈ outShape a axes, 0 ≤ s := by
    rw [outShape_eq hax]
    unfold orUnit
    split
    · simp
    · intro s hs
      obtain ⟨d, hd, rfl⟩ := List.mem_map.1 (remaining_mem hs)
      exact hwf d hd
  obtain ⟨p1, p2, p3, p4, p5, p6, p7⟩ := alloc_props h (outShape a axes) junk hnn
  have hgr : ∀ r, GpuReduce (fun out => sumKernel o a out axes) h a axes junk sh r ↔
      RLaunch (sumKernel o a (alloc h (outShape a axes) junk).2 axes)
        (alloc h (outShape a axes) junk).1 ⟨fun _ _ => none, 0⟩ sh
        (alloc h (outShape a axes) junk).2 r := by
    intro r
    unfold GpuReduce
    rw [axes_ok hax]
    simp
  obtain ⟨l1, l2, ⟨s, l3⟩, l4⟩ := empty_launch
    (sumKernel o a (alloc h (outShape a axes) junk).2 axes)
    (by show (count a axes).toNat = 0; rw [hempty]; rfl)
    (reduceMem (alloc h (outShape a axes) junk).1 ⟨fun _ _ => none, 0⟩
      (RKernel.blockSize (count a axes).toNat)
      (RKernel.gridSize (alloc h (outShape a axes) junk).2.numel.toNat) sh)
  refine ⟨⟨_, (hgr _).2 (.done l3)⟩, fun r hr => ?_⟩
  cases (hgr r).1 hr with
  | fault hx => exact absurd hx l1
  | @done s' hx =>
    rw [l4 s' hx]
    refine ⟨_, _, rfl, by rw [p1, outShape_eq hax], p5, by exact p6, ?_, ?_⟩
    · intro i hi
      rw [p1] at hi
      have hb := dense_bounds hi
      simp only [Heap.get, reduceHeap, reduceMem, alloc]
      rw [← outShape_eq hax]
      simp only [if_true, Buf.ofFn, rowMajor]
      rw [if_pos hb]
      rfl
    · intro b hb
      funext i
      simp only [reduceHeap, reduceMem]
      rw [p7 b hb]
      cases h.mem b i <;> rfl

/-! ## Nothing unmasked -/

theorem root_const (merge : Acc → Acc → Acc) (e : Acc) (he : merge e e = e) (B : Nat) :
    RKernel.root merge B (fun _ => e) = e := by
  have : ∀ l : List Nat, l.foldl (RKernel.level merge) (fun _ => e) = fun _ => e := by
    intro l
    induction l with
    | nil => rfl
    | cons s l ih =>
      rw [List.foldl_cons]
      have : RKernel.level merge (fun _ => e) s = fun _ => e := by
        funext t
        simp [RKernel.level, he]
      rw [this, ih]
  unfold RKernel.root
  rw [this]

/-- **C85 violated: nothing unmasked.** When a result has no unmasked element, the device divides by
zero and returns the quotient as a result; on the CPU the call fails
(`C54_all_masked_throws_partial`). -/
theorem C85_all_masked (o : GpuOps V) (op : MaskedOp) (h : Heap V) (hm : Heap UInt8) (a m : Arr)
    (axes : List Int) (junk : Int → V) (sh : Nat → Nat → V × V × Nat) (X : List Int → V)
    (Y : List Int → UInt8) (hin : DeviceInput h a axes) (hX : h.Contains a X)
    (hY : DeviceMask hm a m Y) (hz : o.add o.zero o.zero = o.zero) :
    ∃ R, DeviceReturns (fun out => maskedKernel o op a m out axes) h hm a axes junk sh R ∧
      ∀ i, ValidIdx (orUnit 1 (remaining axes a.shape)) i →
        (∀ j, ValidIdx a.shape j → orUnit 0 (remaining axes j) = i → Y j ≠ 0) →
        R i = match op with
          | .sum => o.zero
          | .mean => o.div o.zero (o.ofNat 0)
          | .stddev => o.sqrt (variance o (o.div o.zero (o.ofNat 0)) (o.div o.zero (o.ofNat 0)))
          | .var => variance o (o.div o.zero (o.ofNat 0)) (o.div o.zero (o.ofNat 0)) := by
  obtain ⟨R, r1, r2, r3, r4⟩ := one_returns (hm := hm) (sh := sh) (junk := junk) hin.axes hin.pos
    hin.rank hin.owned (maskedItem a m (countStep o)) (o.zero, o.zero, 0) (o.zero, o.zero) id
    (mergeCount o) (maskedWrite o op)
    (fun B G => maskedItems (countStep o) rfl rfl hin.noOffset (alloc_contains hin hX) hY.shape
      hY.noOffset hY.contains)
  refine ⟨R, ⟨r1, r2, r3⟩, fun i hi hall => ?_⟩
  obtain ⟨k, k1, k2, -, k3, -⟩ := r4 i hi
  generalize RKernel.Sem.regs _ _ k = c at k3
  have hE := elements_enumerate (a := a) (axes := axes) (k := k) hin.pos k2
  rw [k1] at hE
  have hacc : ∀ (l : List Nat), (∀ r ∈ l, r < (count a axes).toNat) → ∀ (c : V × V) x,
      ((one_fits (junk := junk) hin.axes hin.pos hin.rank hin.owned
        (maskedItem a m (countStep o)) (o.zero, o.zero, 0) (o.zero, o.zero) id
        (mergeCount o) (maskedWrite o op)).sem (maskedItems (hm := hm) (sh := sh)
          (B := RKernel.blockSize (count a axes).toNat)
          (G := RKernel.gridSize (alloc h (outShape a axes) junk).2.numel.toNat)
          (countStep o) rfl rfl
          hin.noOffset (alloc_contains hin hX) hY.shape hY.noOffset hY.contains)).accum k l c x =
        (c, x) := by
    intro l
    induction l with
    | nil => intro _ c x; rfl
    | cons r l ih =>
      intro hr c x
      have hmem : ((digits a.shape (axisFlags a axes) r k).1.map fun (n : Nat) => (n : Int)) ∈
          elements a axes k := by
        unfold elements
        refine List.mem_map.2 ⟨r, List.mem_range.2 ?_, rfl⟩
        rw [← count_redSize hin.axes hin.pos]
        exact hr r (by simp)
      obtain ⟨v1, v2⟩ := (hE.2 _).1 hmem
      have hne := hall _ v1 v2
      have hf : ∀ c x, (if Y ((digits a.shape (axisFlags a axes) r k).1.map
          fun (n : Nat) => (n : Int)) = 0 then countStep o c x (X ((digits a.shape
          (axisFlags a axes) r k).1.map fun (n : Nat) => (n : Int))) else (c, x)) = (c, x) :=
        fun c x => if_neg hne
      have := ih (fun r' h' => hr r' (by simp [h'])) c x
      refine Eq.trans ?_ this
      show RKernel.Sem.accum _ k l (if _ then _ else _ : (V × V) × (V × V × Nat)).1
        (if _ then _ else _ : (V × V) × (V × V × Nat)).2 = _
      exact congrArg (fun p : (V × V) × (V × V × Nat) => RKernel.Sem.accum _ k l p.1 p.2) (hf c x)
  have hn := n_pos hin.axes hin.pos
  have hB : 0 < RKernel.blockSize (count a axes).toNat := by
    obtain ⟨m, _, hm⟩ := RKernel.blockSize_pow hn
    rw [hm]; exact Nat.two_pow_pos m
  have htot := root_const (mergeCount o) (o.zero, o.zero, 0)
    (by simp [mergeCount, hz]) (RKernel.blockSize (count a axes).toNat)
  rw [k3]
  have : ∀ t, (((one_fits (junk := junk) hin.axes hin.pos hin.rank hin.owned
        (maskedItem a m (countStep o)) (o.zero, o.zero, 0) (o.zero, o.zero) id
        (mergeCount o) (maskedWrite o op)).sem (maskedItems (hm := hm) (sh := sh)
          (B := RKernel.blockSize (count a axes).toNat)
          (G := RKernel.gridSize (alloc h (outShape a axes) junk).2.numel.toNat)
          (countStep o) rfl rfl
          hin.noOffset (alloc_contains hin hX) hY.shape hY.noOffset hY.contains)).part
        (RKernel.blockSize (count a axes).toNat) k t (c t)).2 = (o.zero, o.zero, 0) := by
    intro t
    simp only [RKernel.Sem.part]
    exact congrArg Prod.snd (hacc _ (fun r hr => ((mem_gridStride hB).1 hr).1) _ _)
  simp only [RKernel.Sem.total, this]
  refine (congrArg (maskedWrite o op) htot).trans ?_
  cases op <;> rfl

/-! ## The second index of `mean_stddev` -/

section Writes

variable (K : RKernel V Acc L σ) {Wr : RAddr → Prop}

theorem fill_writes (hitem : ∀ i c x, Prog.Within (fun _ => True) Wr (K.item i c x))
    (hsh : ∀ b t, Wr (.shared b t)) (b B t : Nat) (i : List Nat) (c : L) :
    Prog.Within (fun _ => True) Wr (K.fill b B t i c) := by
  have hloop : ∀ fuel jj i c, Prog.Within (fun _ => True) Wr
      (K.fillLoop (.shared b t) B fuel jj i c) := by
    intro fuel
    induction fuel with
    | zero => intro jj i c; simp only [RKernel.fillLoop]; split <;> constructor
    | succ fuel ih =>
      intro jj i c
      simp only [RKernel.fillLoop]
      split
      · refine Prog.Within.load trivial fun v => ?_
        cases v with
        | acc x => exact (hitem i c x).bind fun r => Prog.Within.store (hsh _ _) (ih _ _ _)
        | val v => exact .fault
        | byte v => exact .fault
      · constructor
  refine Prog.Within.store (hsh _ _) ((hloop _ _ _ _).bind fun c' => Prog.Within.load trivial fun v => ?_)
  cases v with
  | acc x => exact Prog.Within.store (hsh _ _) (.ret _)
  | val v => exact .fault
  | byte v => exact .fault

theorem emit_writes (b t : Nat) (p : Option σ)
    (hp : ∀ o, p = some o → ∀ q ∈ K.outs o, Wr q.1) :
    Prog.Within (fun _ => True) Wr (K.emit b t p) := by
  have hall : ∀ (l : List (RAddr × (Acc → V))) x, (∀ q ∈ l, Wr q.1) →
      Prog.Within (fun _ => True) Wr (RKernel.storeAll l x) := by
    intro l x
    induction l with
    | nil => intro _; exact .ret _
    | cons q l ih =>
      intro h
      exact Prog.Within.store (h q (by simp)) (ih fun q' h' => h q' (by simp [h']))
  cases p with
  | none => exact .ret _
  | some o =>
    simp only [RKernel.emit]
    split
    · refine Prog.Within.load trivial fun v => ?_
      cases v with
      | acc x => exact hall _ _ (hp o rfl)
      | val v => exact .fault
      | byte v => exact .fault
    · exact .ret _

theorem tree_writes (hsh : ∀ b t, Wr (.shared b t)) (b B : Nat) :
    ∀ q ∈ K.tree b B, ∀ (i : Fin B) y, Prog.Within (fun _ => True) Wr (q i y) := by
  intro q hq i y
  obtain ⟨s, _, rfl⟩ := List.mem_map.1 hq
  simp only [RKernel.treeLevel]
  split
  · refine Prog.Within.load trivial fun v => ?_
    cases v with
    | acc x =>
      refine Prog.Within.load trivial fun v => ?_
      cases v with
      | acc y => exact Prog.Within.store (hsh _ _) (.ret _)
      | val v => exact .fault
      | byte v => exact .fault
    | val v => exact .fault
    | byte v => exact .fault
  · exact .ret _

/-- A block writes its shared memory and the outputs of the indices it visits. -/
theorem rounds_writes (hitem : ∀ i c x, Prog.Within (fun _ => True) Wr (K.item i c x))
    (hsh : ∀ b t, Wr (.shared b t)) {b B G : Nat} (P : Nat → σ → Prop)
    (hP : ∀ i o, P i o → i < K.numel → (∀ q ∈ K.outs o, Wr q.1) ∧ P (i + G) (K.next G o))
    (fuel i : Nat) (o : σ) (idx : List Nat) (p : Option σ) (hi : P i o)
    (hp : ∀ o, p = some o → ∀ q ∈ K.outs o, Wr q.1) :
    ∀ q ∈ K.rounds b B G fuel i o idx p, ∀ (t : Fin B) y,
      Prog.Within (fun _ => True) Wr (q t y) := by
  induction fuel generalizing i o idx p with
  | zero =>
    intro q hq t y
    simp only [RKernel.rounds, List.mem_singleton] at hq
    subst hq
    simp only
    split
    · exact .fault
    · exact (emit_writes K b t p hp).bind fun _ => .ret _
  | succ fuel ih =>
    intro q hq t y
    simp only [RKernel.rounds] at hq
    split at hq
    · rename_i hlt
      obtain ⟨h1, h2⟩ := hP i o hi hlt
      rcases List.mem_cons.1 hq with rfl | hq
      · exact (emit_writes K b t p hp).bind fun _ => fill_writes K hitem hsh _ _ _ _ _
      · rcases List.mem_append.1 hq with hq | hq
        · exact tree_writes K hsh _ _ q hq t y
        · exact ih (i + G) _ _ (some o) h2 (fun o' e => by cases e; exact h1) q hq t y
    · simp only [List.mem_singleton] at hq
      subst hq
      exact (emit_writes K b t p hp).bind fun _ => .ret _

end Writes

/-- What no block writes stays. -/
theorem unwritten_stays {ι : Type} [DecidableEq ι] {κ : Type} [DecidableEq κ] {W : RAddr → Prop}
    {x : RAddr} (hx : ¬ W x)
    {ls : ι → BState κ RAddr (RCell V Acc) L} {s : Mem RAddr (RCell V Acc)}
    {o : Outcome ((ι → BState κ RAddr (RCell V Acc) L) × Mem RAddr (RCell V Acc))}
    (h : Exec BlockStep ls s o) (hw : ∀ i, BState.Within (fun _ => True) W (ls i)) :
    ∀ ls' s', o = .ok (ls', s') → s' x = s x := by
  induction h with
  | stop ls s => intro ls' s' e; cases e; rfl
  | @step ls s s' l' o i hk _ ih =>
    intro ls'' s'' e
    have F := block_footprint (ι := κ) (V := RCell V Acc) (L := L) (X := fun _ => True) (W := W)
      (fun _ _ => trivial)
    rw [ih (fun j => ?_) ls'' s'' e, F.frame _ _ _ _ (hw i) hk x hx]
    by_cases hj : j = i
    · subst hj
      rw [Function.update_self]
      exact F.pres _ _ _ _ (hw j) hk
    · rw [Function.update_of_ne hj]
      exact hw j
  | fault i hk => intro ls' s' e; cases e

/-- The indices a block visits for outputs of shape `[2, 1000]`: number of the result, index of the
mean, index of the standard deviation. -/
def Visited (i : Nat) (p : List Nat × List Nat) : Prop :=
  (i < 1024 ∧ p = ([i / 1000, i % 1000], [i / 1000, i % 1000])) ∨
  (1024 ≤ i ∧ i < 2000 ∧ p.2 = [0, i - 1023]) ∨ 2000 ≤ i

theorem visited_next (i : Nat) (p : List Nat × List Nat) (h : Visited i p) (hi : i < 2000) :
    Visited (i + 1024) ((advanceVar [2, 1000] p.1 1024).1,
      (advanceVar [2, 1000] p.2 (advanceVar [2, 1000] p.1 1024).2.1).1) := by
  rcases h with ⟨h1, rfl⟩ | ⟨h1, h2, h3⟩ | h
  · by_cases hlt : i < 976
    · right; left
      refine ⟨by omega, by omega, ?_⟩
      have a1 : ¬ i % 1000 + 1024 < (1000 : Int).toNat := by simp
      have a2 : i / 1000 + (i % 1000 + 1024) / (1000 : Int).toNat < (2 : Int).toNat := by
        simp only [Int.reduceToNat]; omega
      have a3 : (i % 1000 + 1024) / (1000 : Int).toNat = 1 := by
        simp only [Int.reduceToNat]; omega
      have a4 : i % 1000 + 1 < (1000 : Int).toNat := by simp only [Int.reduceToNat]; omega
      have e1 : (advanceVar [2, 1000] [i / 1000, i % 1000] 1024).2.1 = 1 := by
        simp only [advanceVar, Bool.false_eq_true, if_false, a1]
        rw [if_pos a2]
        exact a3
      simp only [e1]
      simp only [advanceVar, Bool.false_eq_true, if_false, a4, if_true]
      have : i / 1000 = 0 := by omega
      rw [this]
      have : i % 1000 + 1 = i + 1024 - 1023 := by omega
      rw [this]
    · right; right; omega
  · right; right; omega
  · omega

/-- **C85 violated: the second index of `mean_stddev`.** For outputs of shape `[2, 1000]`, no
schedule ever writes the standard deviation of result (1, 24): at every moment of every execution,
and in every result, that element is what the new memory held. -/
theorem C85_mean_stddev_index (o : GpuOps V) (h : Heap V) (hm : Heap UInt8) (a : Arr)
    (axes : List Int) (junk1 junk2 : Int → V) (sh : Nat → Nat → V × V) (hax : GoodAxes a axes)
    (hrank : a.shape.length ≤ 4) (hout : orUnit 1 (remaining axes a.shape) = [2, 1000]) :
    (∀ ls s, Exec BlockStep (meanStddevKernel o a (outA h a axes junk1).2
        (outB h a axes junk1 junk2).2 axes).blocks
        (reduceMem (outB h a axes junk1 junk2).1 hm (RKernel.blockSize (count a axes).toNat)
          (RKernel.gridSize (outA h a axes junk1).2.numel.toNat) sh) (.ok (ls, s)) →
      s (.glob (h.next + 1) 1024) = some (.val (junk2 1024))) ∧
    ∀ h' r1 r2, GpuReduce2 (fun out out2 => meanStddevKernel o a out out2 axes)
        h hm a axes junk1 junk2 sh (.ok (h', r1, r2)) →
      h'.get r2 [1, 24] = some (junk2 1024) := by
  have hos : outShape a axes = [2, 1000] := by rw [outShape_eq hax, hout]
  have hshA : (outA h a axes junk1).2.shape = [2, 1000] := by
    simp only [outA, Arr.shape, alloc, hos, denseDims_shape]
  have hstrA : (outA h a axes junk1).2.strides = [1000, 1] := by
    simp only [outA, Arr.strides, alloc, hos]
    rfl
  have hnumA : (outA h a axes junk1).2.numel.toNat = 2000 := by
    unfold Arr.numel
    rw [hshA]
    rfl
  have hdimB : (outB h a axes junk1 junk2).2.dims = (denseDims [2, 1000]).1 := by
    simp only [outB, alloc, hos]
  have hblkB : (outB h a axes junk1 junk2).2.blk = h.next + 1 := rfl
  let W : RAddr → Prop := fun x => x ≠ .glob (h.next + 1) 1024
  have h0 : reduceMem (outB h a axes junk1 junk2).1 hm (RKernel.blockSize (count a axes).toNat)
      (RKernel.gridSize (outA h a axes junk1).2.numel.toNat) sh (.glob (h.next + 1) 1024) =
        some (.val (junk2 1024)) := by
    simp only [reduceMem, outB, alloc, hos]
    have : (outA h a axes junk1).1.next = h.next + 1 := rfl
    simp only [this, if_true]
    rfl
  have hw : ∀ b, BState.Within (fun _ => True) W ((meanStddevKernel o a (outA h a axes junk1).2
      (outB h a axes junk1 junk2).2 axes).blocks b) := by
    intro b
    refine ⟨fun i => .ret _, ?_⟩
    show ∀ p ∈ RKernel.phases _ _ _ _, _
    unfold RKernel.phases
    rw [if_neg (by
      show ¬ (4 < a.shape.length ∨ 4 < (outA h a axes junk1).2.shape.length)
      rw [hshA]
      simp
      omega)]
    have hG : RKernel.gridSize (meanStddevKernel o a (outA h a axes junk1).2
        (outB h a axes junk1 junk2).2 axes).numel = 1024 := by
      show RKernel.gridSize (outA h a axes junk1).2.numel.toNat = 1024
      rw [hnumA]
      rfl
    have hb : b.1 < 1024 := lt_of_lt_of_le b.2 (le_of_eq hG)
    refine rounds_writes _ ?_ (fun _ _ => by simp [W]) Visited ?_ _ _ _ _ none ?_
      (fun o e => by cases e)
    · intro i c x
      show Prog.Within _ _ (plainItem a _ i c x)
      refine Prog.Within.load trivial fun v => ?_
      cases v with
      | val v => exact .ret _
      | acc v => exact .fault
      | byte v => exact .fault
    · intro i p hp hi
      have hi' : i < 2000 := by
        have e : (meanStddevKernel o a (outA h a axes junk1).2
          (outB h a axes junk1 junk2).2 axes).numel = 2000 := hnumA
        rw [e] at hi
        exact hi
      constructor
      · intro q hq
        have hq' : q ∈ [(outAddr (outA h a axes junk1).2 p.1, Prod.fst),
          (outAddr { (outA h a axes junk1).2 with blk := (outB h a axes junk1 junk2).2.blk } p.2,
            fun x => o.sqrt (variance o x.1 x.2))] := hq
        simp only [List.mem_cons, List.not_mem_nil, or_false] at hq'
        rcases hq' with rfl | rfl
        · intro he
          have hA : (outA h a axes junk1).2.blk = h.next := rfl
          simp only [outAddr, hA] at he
          injection he with e1 _
          omega
        · intro he
          simp only [outAddr] at he
          injection he with _ e2
          have hstr : ({ (outA h a axes junk1).2 with
            blk := (outB h a axes junk1 junk2).2.blk } : Arr).strides = [1000, 1] := hstrA
          rw [hstr] at e2
          rcases hp with ⟨h1, rfl⟩ | ⟨h1, h2, h3⟩ | h1
          · simp [sdot] at e2
            omega
          · rw [h3] at e2
            simp [sdot] at e2
            omega
          · omega
      · have := visited_next i p hp hi'
        rw [hG]
        show Visited (i + 1024) ((advanceVar (outA h a axes junk1).2.shape p.1 1024).1,
          (advanceVar (outA h a axes junk1).2.shape p.2
            (advanceVar (outA h a axes junk1).2.shape p.1 1024).2.1).1)
        rw [hshA]
        exact this
    · left
      refine ⟨hb, ?_⟩
      show ((startIndex (outA h a axes junk1).2.shape b).1, (startIndex _ b).1) = _
      rw [hshA]
      have : b.1 / 1000 % 2 = b.1 / 1000 := by omega
      simp [startIndex, this]
  have hstay : ∀ ls s, Exec BlockStep (meanStddevKernel o a (outA h a axes junk1).2
        (outB h a axes junk1 junk2).2 axes).blocks
        (reduceMem (outB h a axes junk1 junk2).1 hm (RKernel.blockSize (count a axes).toNat)
          (RKernel.gridSize (outA h a axes junk1).2.numel.toNat) sh) (.ok (ls, s)) →
      s (.glob (h.next + 1) 1024) = some (.val (junk2 1024)) := by
    intro ls s hE
    rw [unwritten_stays (W := W) (x := .glob (h.next + 1) 1024) (by simp [W]) hE hw ls s rfl, h0]
  refine ⟨hstay, fun h' r1 r2 hr => ?_⟩
  unfold GpuReduce2 at hr
  rw [axes_ok hax] at hr
  simp only [Bool.false_eq_true, if_false] at hr
  have hr' : RLaunch (meanStddevKernel o a (outA h a axes junk1).2 (outB h a axes junk1 junk2).2 axes)
    (outB h a axes junk1 junk2).1 hm sh
    ((outA h a axes junk1).2, (outB h a axes junk1 junk2).2) (.ok (h', r1, r2)) := hr
  generalize hq : (Outcome.ok (h', r1, r2) : Outcome (Heap V × Arr × Arr)) = q at hr'
  cases hr' with
  | fault hx => cases hq
  | @done s hx =>
    have e := Outcome.ok.inj hq
    have e1 : h' = reduceHeap (outB h a axes junk1 junk2).1 s := congrArg Prod.fst e
    have e2 : r2 = (outB h a axes junk1 junk2).2 := congrArg (fun p => p.2.2) e
    subst e1 e2
    obtain ⟨ls, hE, _⟩ := hx
    have := hstay ls s hE
    have ha : addr (denseDims [2, 1000]).1 [1, 24] = 1024 := by decide
    simp only [Heap.get, hdimB, ha, hblkB, reduceHeap, this]

/-! ## The hypotheses are met -/

/-- A heap with one allocation of six numbers. -/
def exampleHeap : Heap ℚ :=
  ⟨fun b => if b = 0 then Buf.ofFn 6 fun i => (i : ℚ) else fun _ => none, 1⟩

/-- A mask of six bytes, the even ones set. -/
def exampleMask : Heap UInt8 :=
  ⟨fun b => if b = 0 then Buf.ofFn 6 fun i => if i % 2 = 0 then 1 else 0 else fun _ => none, 1⟩

theorem example_input : DeviceInput exampleHeap (dense 0 [2, 3]) [0] :=
  ⟨⟨by simp, by simp [dense, denseDims]⟩, by decide, by decide, by decide, by decide⟩

theorem example_contains : exampleHeap.Contains (dense 0 [2, 3])
    fun j => (addr (denseDims [2, 3]).1 j : ℚ) := by
  intro idx hv
  simp only [Arr.shape, dense, denseDims_shape] at hv
  have := dense_bounds hv
  rw [denseDims_numel] at this
  simp at this
  simp [Heap.get, exampleHeap, dense, Buf.ofFn, this.1, this.2]

theorem example_enumerates : Enumerates (dense 0 [2, 3]).shape [0] [1] [[0, 1], [1, 1]] := by
  refine ⟨by decide, fun j => ?_⟩
  show _ ↔ ValidIdx [2, 3] j ∧ _
  constructor
  · intro hj
    simp only [List.mem_cons, List.not_mem_nil, or_false] at hj
    rcases hj with rfl | rfl
    · exact ⟨.cons ⟨by decide, by decide⟩ (.cons ⟨by decide, by decide⟩ .nil), by decide⟩
    · exact ⟨.cons ⟨by decide, by decide⟩ (.cons ⟨by decide, by decide⟩ .nil), by decide⟩
  · rintro ⟨hv, hr⟩
    cases hv with
    | @cons _ x _ _ h1 h2 =>
      cases h2 with
      | @cons _ y _ _ h3 h4 =>
        cases h4
        have hx : x = 0 ∨ x = 1 := by omega
        have hy : y = 1 := by simpa [remaining, orUnit] using hr
        subst hy
        rcases hx with rfl | rfl <;> simp

theorem example_mask : DeviceMask exampleMask (dense 0 [2, 3]) (dense 0 [2, 3])
    fun j => if addr (denseDims [2, 3]).1 j % 2 = 0 then 1 else 0 := by
  refine ⟨rfl, by decide, ?_⟩
  intro idx hv
  simp only [Arr.shape, dense, denseDims_shape] at hv
  have := dense_bounds hv
  rw [denseDims_numel] at this
  simp at this
  simp [Heap.get, exampleMask, dense, Buf.ofFn, this.1, this.2]

/-- The rows 0 1 2 and 3 4 5, added along the first axis: 3 5 7. -/
example (sqrt : ℚ → ℚ) (junk : Int → ℚ) (sh : Nat → Nat → ℚ) (hm : Heap UInt8) :
    ∃ R, DeviceReturns (fun out => sumKernel (gpuRat sqrt) (dense 0 [2, 3]) out [0]) exampleHeap hm
      (dense 0 [2, 3]) [0] junk sh R ∧ R [1] = 5 := by
  obtain ⟨R, r1, r2⟩ := C85_sum_partial sqrt exampleHeap (dense 0 [2, 3]) [0] junk sh _ hm
    example_input example_contains
  refine ⟨R, r1, ?_⟩
  rw [r2 [1] (.cons ⟨by decide, by decide⟩ .nil) _ example_enumerates]
  norm_num [addr, denseDims]

example (o : GpuOps ℚ) (op : MaskedOp) (junk : Int → ℚ) (sh : Nat → Nat → ℚ × ℚ × Nat) :
    ∃ R, DeviceReturns (fun out => maskedKernel o op (dense 0 [2, 3]) (dense 0 [2, 3]) out [0])
      exampleHeap exampleMask (dense 0 [2, 3]) [0] junk sh R :=
  C85_masked_reproducible_partial o op exampleHeap exampleMask _ _ [0] junk sh _ _ example_input
    example_contains example_mask

example : SmallOutput (dense 0 [2, 3]) [0] := .inr (by decide)

/-- The hypotheses of `C85_mean_stddev_index`: an array of shape `[2, 1000, 3]` reduced along its
last axis. -/
example : GoodAxes (dense 0 [2, 1000, 3]) [2] ∧ (dense 0 [2, 1000, 3]).shape.length ≤ 4 ∧
    orUnit 1 (remaining [2] (dense 0 [2, 1000, 3]).shape) = [2, 1000] :=
  ⟨⟨by simp, by simp [dense, denseDims]⟩, by decide, by decide⟩

end Bliss.Gpu
