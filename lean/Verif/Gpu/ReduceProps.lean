import Verif.Gpu.ReduceSem

/-!
# C85: reductions on a CUDA device

`GpuReduce kernel h a axes junk sh o` says that the reduction can end in `o` under some schedule of
its blocks and threads.
-/

namespace Bliss.Gpu

open Bliss.Nd Bliss.Stat

variable {V Acc L σ : Type}

/-- No schedule of the reduction runs for ever. -/
def ReduceTerminates (kernel : Arr → RKernel V Acc L σ) (h : Heap V) (hm : Heap UInt8) (a : Arr)
    (axes : List Int) (junk : Int → V) (sh : Nat → Nat → Acc) : Prop :=
  let x := alloc h (outShape a axes) junk
  Terminates BlockStep (kernel x.2).blocks (reduceMem x.1 hm (RKernel.blockSize (kernel x.2).n)
    (RKernel.gridSize (kernel x.2).numel) sh)

/-- The same for two outputs. -/
def ReduceTerminates2 (kernel : Arr → Arr → RKernel V Acc L σ) (h : Heap V) (hm : Heap UInt8)
    (a : Arr) (axes : List Int) (junk1 junk2 : Int → V) (sh : Nat → Nat → Acc) : Prop :=
  let x := alloc h (outShape a axes) junk1
  let y := alloc x.1 (outShape a axes) junk2
  Terminates BlockStep (kernel x.2 y.2).blocks (reduceMem y.1 hm
    (RKernel.blockSize (kernel x.2 y.2).n) (RKernel.gridSize (kernel x.2 y.2).numel) sh)

/-! ## Shapes -/

theorem remaining_mem {axes l : List Int} {s : Int} (h : s ∈ remaining axes l) : s ∈ l := by
  unfold remaining at h
  split at h
  · cases h
  · obtain ⟨p, hp, rfl⟩ := List.mem_map.1 h
    have := (List.mem_filter.1 hp).1
    exact List.fst_mem_of_mem_zipIdx this

theorem remaining_length_le (axes l : List Int) : (remaining axes l).length ≤ l.length := by
  unfold remaining
  split
  · simp
  · rw [List.length_map]
    exact (List.length_filter_le _ _).trans (by simp)

theorem out_pos {a : Arr} {axes : List Int} (hax : GoodAxes a axes) (hpos : ∀ s ∈ a.shape, 0 < s) :
    ∀ s ∈ outShape a axes, 0 < s := by
  rw [outShape_eq hax]
  unfold orUnit
  split
  · simp
  · exact fun s hs => hpos s (remaining_mem hs)

theorem out_rank {a : Arr} {axes : List Int} (hax : GoodAxes a axes) (hr : a.shape.length ≤ 4) :
    (outShape a axes).length ≤ 4 := by
  rw [outShape_eq hax]
  unfold orUnit
  split
  · simp
  · exact (remaining_length_le _ _).trans hr

theorem axes_ok {a : Arr} {axes : List Int} (hax : GoodAxes a axes) :
    (allAxes a axes).any (fun d => decide (d < 0 ∨ (a.dims.length : Int) ≤ d)) = false := by
  rw [List.any_eq_false]
  intro d hd
  unfold allAxes at hd
  split at hd
  · obtain ⟨n, hn, rfl⟩ := List.mem_map.1 hd
    have := List.mem_range.1 hn
    simp
    omega
  · have := hax.2 d hd
    simp
    omega

theorem n_pos {a : Arr} {axes : List Int} (hax : GoodAxes a axes) (hpos : ∀ s ∈ a.shape, 0 < s) :
    0 < (count a axes).toNat := by
  rw [count_redSize hax hpos]
  have : ∀ (shape : List Int) (fs : List Bool), (∀ s ∈ shape, 0 < s) → 0 < redSize shape fs := by
    intro shape
    induction shape with
    | nil => intro fs _; simp [redSize]
    | cons s ss ih =>
      intro fs h
      cases fs with
      | nil => simp [redSize]
      | cons f fs =>
        have h1 := h s (by simp)
        have h2 := ih fs fun x hx => h x (by simp [hx])
        cases f
        · simpa [redSize] using h2
        · simp only [redSize, if_true]
          exact Nat.mul_pos (by omega) h2
  exact this _ _ hpos

/-! ## One output -/

section One

variable {h : Heap V} {hm : Heap UInt8} {a : Arr} {axes : List Int} {junk : Int → V}
  {sh : Nat → Nat → Acc}

theorem one_fits (hax : GoodAxes a axes) (hpos : ∀ s ∈ a.shape, 0 < s) (hr : a.shape.length ≤ 4)
    (hb : a.blk < h.next) (item : List Nat → L → Acc → RProg V Acc (L × Acc))
    (zero : Acc) (comp : L) (norm : Acc → Acc) (merge : Acc → Acc → Acc) (write : Acc → V) :
    (oneOut a (alloc h (outShape a axes) junk).2 axes item zero comp norm merge write).Fits a
      (alloc h (outShape a axes) junk).2 axes (alloc h (outShape a axes) junk).1
      [(h.next, write)]
      (fun k => (startIndex (alloc h (outShape a axes) junk).2.shape k).1) := by
  have hp := out_pos hax hpos
  obtain ⟨p1, p2, p3, p4, p5, p6, p7⟩ := alloc_props h (outShape a axes) junk
    (fun s hs => (hp s hs).le)
  have hp' : ∀ s ∈ (alloc h (outShape a axes) junk).2.shape, 0 < s := by rw [p1]; exact hp
  exact
    { shape := rfl, flags := rfl, n := rfl, numel := rfl, outRank := rfl, pos := hpos
      posO := hp'
      rank := ⟨hr, by rw [p1]; exact out_rank hax hr⟩
      base := alloc_base _ _ _
      distinct := p3
      outs := fun k => rfl
      first := fun b _ => rfl
      next := fun k _ => by
        show (advance _ _ _).1 = _
        rw [advance_start _ k _ hp']
      nodup := by simp
      fresh := by
        simp only [List.mem_singleton, forall_eq]
        omega
      mapped := by
        simp only [List.mem_singleton, forall_eq]
        intro idx hi
        exact p4 idx hi }

/-- A reduction with one output, whatever it accumulates: every schedule ends with the same result
and touches no existing array. -/
theorem one_returns (hax : GoodAxes a axes) (hpos : ∀ s ∈ a.shape, 0 < s)
    (hr : a.shape.length ≤ 4) (hb : a.blk < h.next)
    (item : List Nat → L → Acc → RProg V Acc (L × Acc))
    (zero : Acc) (comp : L) (norm : Acc → Acc) (merge : Acc → Acc → Acc) (write : Acc → V)
    (I : ∀ B G, (oneOut a (alloc h (outShape a axes) junk).2 axes item zero comp norm merge
      write).Items a.blk (reduceMem (alloc h (outShape a axes) junk).1 hm B G sh)) :
    let kernel := fun out => oneOut a out axes item zero comp norm merge write
    let F := one_fits (junk := junk) hax hpos hr hb item zero comp norm merge write
    let M := F.sem (I (RKernel.blockSize (count a axes).toNat)
      (RKernel.gridSize (alloc h (outShape a axes) junk).2.numel.toNat))
    ∃ R : List Int → V,
      (∃ o, GpuMasked kernel h hm a axes junk sh o) ∧
      ReduceTerminates kernel h hm a axes junk sh ∧
      (∀ o, GpuMasked kernel h hm a axes junk sh o →
        Returns h o (orUnit 1 (remaining axes a.shape)) R) ∧
      ∀ i, ValidIdx (orUnit 1 (remaining axes a.shape)) i →
        ∃ k, indexOf (orUnit 1 (remaining axes a.shape)) k = i ∧
          (remaining axes a.shape = [] → k = 0) ∧
          k < (alloc h (outShape a axes) junk).2.numel.toNat ∧
          R i = write (M.total (RKernel.blockSize (count a axes).toNat) k
            (M.regs (RKernel.blockSize (count a axes).toNat) k)) ∧
          ((∀ k t, (M.part (RKernel.blockSize (count a axes).toNat) k t comp).1 = comp) →
            R i = write (M.total (RKernel.blockSize (count a axes).toNat) k fun _ => comp)) := by
  intro kernel F M
  have hp := out_pos hax hpos
  obtain ⟨p1, p2, p3, p4, p5, p6, p7⟩ := alloc_props h (outShape a axes) junk
    (fun s hs => (hp s hs).le)
  obtain ⟨val, v1, v2, v3, v4, v5⟩ := F.launch (hm := hm) (sh := sh) (n_pos hax hpos)
    (I (RKernel.blockSize (count a axes).toNat)
      (RKernel.gridSize (alloc h (outShape a axes) junk).2.numel.toNat))
    (alloc h (outShape a axes) junk).2
  have hgr : ∀ o, GpuMasked kernel h hm a axes junk sh o ↔
      RLaunch (kernel (alloc h (outShape a axes) junk).2) (alloc h (outShape a axes) junk).1 hm sh
        (alloc h (outShape a axes) junk).2 o := by
    intro o
    unfold GpuMasked
    rw [axes_ok hax]
    simp
  have hk : ∀ i, ∃ k, ValidIdx (alloc h (outShape a axes) junk).2.shape i →
      k < (alloc h (outShape a axes) junk).2.numel.toNat ∧
        indexOf (alloc h (outShape a axes) junk).2.shape k = i := by
    intro i
    by_cases hi : ValidIdx (alloc h (outShape a axes) junk).2.shape i
    · obtain ⟨k, h1, h2⟩ := F.surj hi
      exact ⟨k, fun _ => ⟨h1, h2⟩⟩
    · exact ⟨0, fun h => absurd h hi⟩
  choose kOf hkOf using hk
  have hsh : (alloc h (outShape a axes) junk).2.shape = orUnit 1 (remaining axes a.shape) := by
    rw [p1, outShape_eq hax]
  refine ⟨fun i => write (val (kOf i)), ?_, v4, ?_, ?_⟩
  · obtain ⟨o, ho⟩ := v3
    exact ⟨o, (hgr o).2 ho⟩
  · intro o ho
    obtain ⟨h', rfl, e2, e3, e4⟩ := v5 o ((hgr o).1 ho)
    refine ⟨h', _, rfl, hsh, p5, by rw [e2, p6], ?_, ?_⟩
    · intro i hi
      obtain ⟨k1, k2⟩ := hkOf i hi
      have := e3 _ k1 (h.next, write) (by simp)
      simp only [k2] at this
      exact this
    · intro b hb'
      rw [e4 b (by simp; omega)]
      exact p7 b hb'
  · intro i hi
    rw [← hsh] at hi
    obtain ⟨k1, k2⟩ := hkOf i hi
    refine ⟨kOf i, by rw [← hsh]; exact k2, ?_, k1, ?_, ?_⟩
    · intro he
      have : (alloc h (outShape a axes) junk).2.numel = 1 := by
        unfold Arr.numel
        rw [hsh, he]
        simp [orUnit]
      rw [this] at k1
      simpa using k1
    · exact congrArg write (v2 _ k1)
    · intro hc
      exact congrArg write (v1 hc _ k1)

/-- The same when the accumulation is a commutative fold: the order does not matter. -/
theorem one_fold (hax : GoodAxes a axes) (hpos : ∀ s ∈ a.shape, 0 < s)
    (hr : a.shape.length ≤ 4) (hb : a.blk < h.next)
    (item : List Nat → L → Acc → RProg V Acc (L × Acc))
    (zero : Acc) (comp : L) (norm : Acc → Acc) (op : Acc → Acc → Acc) (write : Acc → V)
    [Std.Associative op] [Std.Commutative op] (he : ∀ x, op x zero = x)
    (hφ : ∀ x y, norm (op x y) = op (norm x) (norm y)) (hφ0 : norm zero = zero)
    (v : List Int → Acc)
    (I : ∀ B G, (oneOut a (alloc h (outShape a axes) junk).2 axes item zero comp norm op
      write).Items a.blk (reduceMem (alloc h (outShape a axes) junk).1 hm B G sh))
    (hf : ∀ B G i x, (I B G).f i comp x = (comp, op x (v (i.map fun (n : Nat) => (n : Int))))) :
    let kernel := fun out => oneOut a out axes item zero comp norm op write
    ∃ R : List Int → V,
      (∃ o, GpuMasked kernel h hm a axes junk sh o) ∧
      ReduceTerminates kernel h hm a axes junk sh ∧
      (∀ o, GpuMasked kernel h hm a axes junk sh o →
        Returns h o (orUnit 1 (remaining axes a.shape)) R) ∧
      ∀ i, ValidIdx (orUnit 1 (remaining axes a.shape)) i → ∀ l, Enumerates a.shape axes i l →
        R i = write (norm ((l.map v).foldr op zero)) := by
  intro kernel
  obtain ⟨R, r1, r2, r3, r4⟩ := one_returns (hm := hm) (sh := sh) (junk := junk) hax hpos hr hb item
    zero comp norm op write I
  refine ⟨R, r1, r2, r3, fun i hi l hl => ?_⟩
  obtain ⟨k, k1, k2, -, -, k4⟩ := r4 i hi
  have ht := fun k => RKernel.total_fold ((one_fits (junk := junk) hax hpos hr hb item zero comp norm
    op write).sem (I (RKernel.blockSize (count a axes).toNat)
      (RKernel.gridSize (alloc h (outShape a axes) junk).2.numel.toNat))) op he rfl hφ hφ0
    (fun i => v (i.map fun (n : Nat) => (n : Int))) (hf _ _) (n_pos hax hpos) k
  rw [k4 fun k t => (ht k).2 t]
  refine congrArg write (((ht k).1).trans (congrArg norm ?_))
  have hE := elements_enumerate (a := a) (axes := axes) (k := k) hpos k2
  rw [k1] at hE
  have hp := (enumerates_perm hE hl).map v
  have hlc : LeftCommutative op := ⟨fun x y z => by
    rw [← Std.Associative.assoc (op := op), Std.Commutative.comm (op := op) x y,
      Std.Associative.assoc (op := op)]⟩
  rw [← hp.foldr_eq]
  unfold elements
  rw [List.map_map, ← count_redSize hax hpos]
  rfl

end One

/-! ## Sum, mean, standard deviation, variance, maximum -/

/-- What the theorems ask of the array: existing axes, none twice, no empty dimension, at most four
dimensions, allocated, and *no offset* (`C85_offset_ignored`). -/
structure DeviceInput (h : Heap V) (a : Arr) (axes : List Int) : Prop where
  axes : GoodAxes a axes
  pos : ∀ s ∈ a.shape, 0 < s
  rank : a.shape.length ≤ 4
  owned : a.blk < h.next
  noOffset : a.base = 0

/-- Every schedule ends, with the same new array of the given contents, and changes no existing
array. -/
def DeviceReturns (kernel : Arr → RKernel V Acc L σ) (h : Heap V) (hm : Heap UInt8) (a : Arr)
    (axes : List Int) (junk : Int → V) (sh : Nat → Nat → Acc) (R : List Int → V) : Prop :=
  (∃ o, GpuMasked kernel h hm a axes junk sh o) ∧
  ReduceTerminates kernel h hm a axes junk sh ∧
  ∀ o, GpuMasked kernel h hm a axes junk sh o →
    Returns h o (orUnit 1 (remaining axes a.shape)) R

/-- Reductions without a mask use no mask. -/
theorem gpuReduce_iff (kernel : Arr → RKernel V Acc L σ) (h : Heap V) (a : Arr) (axes : List Int)
    (junk : Int → V) (sh : Nat → Nat → Acc) (o : Outcome (Heap V × Arr)) :
    GpuReduce kernel h a axes junk sh o ↔
      GpuMasked kernel h ⟨fun _ _ => none, 0⟩ a axes junk sh o := Iff.rfl

section Plain

variable {h : Heap V} {hm : Heap UInt8} {a : Arr} {axes : List Int} {junk : Int → V}
  {X : List Int → V}

theorem alloc_contains (hin : DeviceInput h a axes) (hX : h.Contains a X) :
    (alloc h (outShape a axes) junk).1.Contains a X :=
  Contains.frame hX hin.owned (alloc_props h (outShape a axes) junk
    (fun s hs => (out_pos hin.axes hin.pos s hs).le)).2.2.2.2.2.2

theorem plain_returns (hin : DeviceInput h a axes) (hX : h.Contains a X) (sh : Nat → Nat → Acc)
    (step : L → Acc → V → L × Acc) (zero : Acc) (comp : L) (norm : Acc → Acc)
    (merge : Acc → Acc → Acc) (write : Acc → V) :
    ∃ R, DeviceReturns (fun out => oneOut a out axes (plainItem a step) zero comp norm merge write)
      h hm a axes junk sh R := by
  obtain ⟨R, r1, r2, r3, -⟩ := one_returns (hm := hm) (sh := sh) (junk := junk) hin.axes hin.pos
    hin.rank hin.owned (plainItem a step) zero comp norm merge write
    (fun B G => plainItems step rfl rfl hin.noOffset (alloc_contains hin hX))
  exact ⟨R, r1, r2, r3⟩

theorem plain_fold (hin : DeviceInput h a axes) (hX : h.Contains a X) (sh : Nat → Nat → Acc)
    (step : L → Acc → V → L × Acc) (zero : Acc) (comp : L) (norm : Acc → Acc)
    (op : Acc → Acc → Acc) (write : Acc → V) [Std.Associative op] [Std.Commutative op]
    (he : ∀ x, op x zero = x) (hφ : ∀ x y, norm (op x y) = op (norm x) (norm y))
    (hφ0 : norm zero = zero) (g : V → Acc) (hstep : ∀ x v, step comp x v = (comp, op x (g v))) :
    ∃ R, DeviceReturns (fun out => oneOut a out axes (plainItem a step) zero comp norm op write)
      h hm a axes junk sh R ∧
      ∀ i, ValidIdx (orUnit 1 (remaining axes a.shape)) i → ∀ l, Enumerates a.shape axes i l →
        R i = write (norm ((l.map fun j => g (X j)).foldr op zero)) := by
  obtain ⟨R, r1, r2, r3, r4⟩ := one_fold (hm := hm) (sh := sh) (junk := junk) hin.axes hin.pos
    hin.rank hin.owned (plainItem a step) zero comp norm op write he hφ hφ0 (fun j => g (X j))
    (fun B G => plainItems step rfl rfl hin.noOffset (alloc_contains hin hX))
    (fun B G i x => hstep x _)
  exact ⟨R, ⟨r1, r2, r3⟩, r4⟩

end Plain

/-- **C85.** Reproducible: for any arithmetic, in particular rounded arithmetic, the result of a
device reduction does not depend on the schedule; every schedule ends without leaving an allocation
and no existing array changes. Missing from C85: views with an offset (`C85_offset_ignored`), more
than four dimensions (`C85_rank_five`), empty reductions (`C85_empty_reduction`). -/
theorem C85_reproducible_partial (o : GpuOps V) (h : Heap V) (a : Arr) (axes : List Int)
    (junk : Int → V) (X : List Int → V) (hm : Heap UInt8) (hin : DeviceInput h a axes)
    (hX : h.Contains a X) :
    (∀ sh, ∃ R, DeviceReturns (fun out => sumKernel o a out axes) h hm a axes junk sh R) ∧
    (∀ sh, ∃ R, DeviceReturns (fun out => meanKernel o a out axes) h hm a axes junk sh R) ∧
    (∀ root sh, ∃ R, DeviceReturns (fun out => devKernel o root a out axes) h hm a axes junk sh R) ∧
    ∀ sh, ∃ R, DeviceReturns (fun out => maxKernel o a out axes) h hm a axes junk sh R :=
  ⟨fun sh => plain_returns hin hX sh _ _ _ _ _ _, fun sh => plain_returns hin hX sh _ _ _ _ _ _,
    fun _ sh => plain_returns hin hX sh _ _ _ _ _ _,
    fun sh => plain_returns hin hX sh _ _ _ _ _ _⟩

/-- Exact arithmetic on rational numbers, with some square root function. -/
def gpuRat (sqrt : ℚ → ℚ) : GpuOps ℚ where
  zero := 0
  add := (· + ·)
  sub := (· - ·)
  mul := (· * ·)
  div := (· / ·)
  ofNat := fun n => n
  sqrt := sqrt
  clip := fun x => if x < 0 then 0 else x
  gt := fun x y => decide (y < x)
  lowest := -(2 ^ 128)

theorem kahan_exact (sqrt : ℚ → ℚ) (s v : ℚ) : kahan (gpuRat sqrt) 0 s v = (0, s + v) := by
  simp [kahan, gpuRat]

theorem foldr_sum {α : Type} (f : α → ℚ) (l : List α) :
    (l.map f).foldr (· + ·) 0 = (l.map f).sum := by
  induction l with
  | nil => rfl
  | cons x l ih => simp [ih]

/-- Componentwise addition of pairs. -/
def addPair (x y : ℚ × ℚ) : ℚ × ℚ := (x.1 + y.1, x.2 + y.2)

instance : Std.Associative addPair := ⟨fun x y z => by simp [addPair, add_assoc]⟩
instance : Std.Commutative addPair := ⟨fun x y => by simp [addPair, add_comm]⟩

theorem foldr_addPair {α : Type} (f g : α → ℚ) (l : List α) :
    (l.map fun j => (f j, g j)).foldr addPair (0, 0) = ((l.map f).sum, (l.map g).sum) := by
  induction l with
  | nil => rfl
  | cons x l ih =>
    rw [List.map_cons, List.foldr_cons, ih]
    simp [addPair]

/-- The population variance of the elements `l`. -/
def popVar (X : List Int → ℚ) (l : List (List Int)) : ℚ :=
  (l.map (fun j => (X j - (l.map X).sum / l.length) ^ 2)).sum / l.length

theorem popVar_eq (X : List Int → ℚ) (l : List (List Int)) (hne : l ≠ []) :
    (l.map (fun j => X j * X j)).sum / l.length -
      (l.map X).sum / l.length * ((l.map X).sum / l.length) = popVar X l := by
  have hlen : (0 : ℚ) < l.length := by
    have := List.length_pos_of_ne_nil hne
    exact_mod_cast this
  have e : (l.map (fun j => X j * X j)).sum / l.length -
      (l.map X).sum / l.length * ((l.map X).sum / l.length) =
      ((l.map (fun j => X j ^ 2)).sum - 2 * ((l.map X).sum / l.length) * (l.map X).sum +
        l.length * ((l.map X).sum / l.length) ^ 2) / l.length := by
    have : (l.map (fun j => X j * X j)) = l.map (fun j => X j ^ 2) := by
      apply List.map_congr_left
      intro j _
      ring
    rw [this]
    field_simp
    ring
  rw [e, ← sum_sq_dev]
  rfl

theorem popVar_nonneg (X : List Int → ℚ) (l : List (List Int)) : 0 ≤ popVar X l :=
  div_nonneg (sum_sq_nonneg X _ l) (by positivity)

theorem variance_exact (sqrt : ℚ → ℚ) (X : List Int → ℚ) (l : List (List Int)) (hne : l ≠ []) :
    variance (gpuRat sqrt) ((l.map X).sum / l.length) ((l.map (fun j => X j * X j)).sum / l.length) =
      popVar X l := by
  have hclip : ∀ x y : ℚ, x = y → 0 ≤ y → (gpuRat sqrt).clip x = y := by
    rintro x _ rfl h
    exact if_neg (not_lt.2 h)
  exact hclip _ _ (popVar_eq X l hne) (popVar_nonneg X l)

theorem enumerates_length {a : Arr} {axes i : List Int} (hin : GoodAxes a axes)
    (hpos : ∀ s ∈ a.shape, 0 < s) (hi : ValidIdx (orUnit 1 (remaining axes a.shape)) i)
    {l : List (List Int)} (hl : Enumerates a.shape axes i l) : l.length = (count a axes).toNat := by
  have hwf : a.WF := by
    intro d hd
    exact (hpos d.size (List.mem_map.2 ⟨d, hd, rfl⟩)).le
  rw [← (enumerates_perm (order_enumerates hin hi) hl).length_eq]
  have := count_eq axes hwf i
  omega

/-- **C85 (sum).** In exact arithmetic, element `i` of a sum on the device is the sum of the input
elements with remaining index `i`, under every schedule. Missing: as in
`C85_reproducible_partial`. -/
theorem C85_sum_partial (sqrt : ℚ → ℚ) (h : Heap ℚ) (a : Arr) (axes : List Int) (junk : Int → ℚ)
    (sh : Nat → Nat → ℚ) (X : List Int → ℚ) (hm : Heap UInt8) (hin : DeviceInput h a axes)
    (hX : h.Contains a X) :
    ∃ R, DeviceReturns (fun out => sumKernel (gpuRat sqrt) a out axes) h hm a axes junk sh R ∧
      ∀ i, ValidIdx (orUnit 1 (remaining axes a.shape)) i → ∀ l, Enumerates a.shape axes i l →
        R i = (l.map X).sum := by
  obtain ⟨R, r1, r2⟩ := plain_fold (hm := hm) (junk := junk) hin hX sh (sumStep (gpuRat sqrt)) 0 0 id
    (· + ·) id (fun x => add_zero x) (fun _ _ => rfl) rfl id (fun x v => kahan_exact sqrt x v)
  exact ⟨R, r1, fun i hi l hl => (r2 i hi l hl).trans (foldr_sum X l)⟩

/-- **C85 (mean).** The arithmetic mean. Missing: as in `C85_reproducible_partial`. -/
theorem C85_mean_partial (sqrt : ℚ → ℚ) (h : Heap ℚ) (a : Arr) (axes : List Int) (junk : Int → ℚ)
    (sh : Nat → Nat → ℚ) (X : List Int → ℚ) (hm : Heap UInt8) (hin : DeviceInput h a axes)
    (hX : h.Contains a X) :
    ∃ R, DeviceReturns (fun out => meanKernel (gpuRat sqrt) a out axes) h hm a axes junk sh R ∧
      ∀ i, ValidIdx (orUnit 1 (remaining axes a.shape)) i → ∀ l, Enumerates a.shape axes i l →
        R i = (l.map X).sum / l.length := by
  obtain ⟨R, r1, r2⟩ := plain_fold (hm := hm) (junk := junk) hin hX sh (sumStep (gpuRat sqrt)) 0 0
    (fun x => x / ((count a axes).toNat : ℚ))
    (· + ·) id (fun x => add_zero x) (fun _ _ => add_div _ _ _) (zero_div _) id
    (fun x v => kahan_exact sqrt x v)
  refine ⟨R, r1, fun i hi l hl => (r2 i hi l hl).trans ?_⟩
  rw [enumerates_length hin.axes hin.pos hi hl]
  exact congrArg (· / _) (foldr_sum X l)

/-- **C85 (standard deviation and variance).** The population variance, and its square root.
Missing: as in `C85_reproducible_partial`. -/
theorem C85_stddev_partial (sqrt : ℚ → ℚ) (root : Bool) (h : Heap ℚ) (a : Arr) (axes : List Int)
    (junk : Int → ℚ) (sh : Nat → Nat → ℚ × ℚ) (X : List Int → ℚ) (hm : Heap UInt8)
    (hin : DeviceInput h a axes) (hX : h.Contains a X) :
    ∃ R, DeviceReturns (fun out => devKernel (gpuRat sqrt) root a out axes) h hm a axes junk sh R ∧
      ∀ i, ValidIdx (orUnit 1 (remaining axes a.shape)) i → ∀ l, Enumerates a.shape axes i l →
        R i = if root then sqrt (popVar X l) else popVar X l := by
  obtain ⟨R, r1, r2⟩ := plain_fold (hm := hm) (junk := junk) hin hX sh (squareStep (gpuRat sqrt))
    (0, 0) (0, 0)
    (fun x => (x.1 / ((count a axes).toNat : ℚ), x.2 / ((count a axes).toNat : ℚ)))
    addPair (fun x => let v := variance (gpuRat sqrt) x.1 x.2; if root then sqrt v else v)
    (fun x => by simp [addPair])
    (fun _ _ => by simp [addPair, add_div]) (by simp) (fun v => (v, v * v))
    (fun x v => by
      simp only [squareStep, kahan_exact, addPair]
      rfl)
  refine ⟨R, r1, fun i hi l hl => (r2 i hi l hl).trans ?_⟩
  have hn := enumerates_length hin.axes hin.pos hi hl
  have hne : l ≠ [] := by
    intro e
    have := n_pos hin.axes hin.pos
    rw [e] at hn
    simp at hn
    omega
  rw [foldr_addPair X (fun j => X j * X j) l, ← hn]
  simp only
  rw [variance_exact sqrt X l hne]

/-- **C85 (maximum).** When `>` is a linear order and `lowest` its least element, element `i` is the
largest of its input elements. Missing: as in `C85_reproducible_partial`. -/
theorem C85_max_partial [LinearOrder V] (o : GpuOps V) (hgt : ∀ x y, o.gt x y = decide (y < x))
    (hlow : ∀ x, o.lowest ≤ x) (h : Heap V) (a : Arr) (axes : List Int)
    (junk : Int → V) (sh : Nat → Nat → V) (X : List Int → V) (hm : Heap UInt8)
    (hin : DeviceInput h a axes) (hX : h.Contains a X) :
    ∃ R, DeviceReturns (fun out => maxKernel o a out axes) h hm a axes junk sh R ∧
      ∀ i, ValidIdx (orUnit 1 (remaining axes a.shape)) i →
        (∀ j, ValidIdx a.shape j → orUnit 0 (remaining axes j) = i → X j ≤ R i) ∧
        ∃ j, ValidIdx a.shape j ∧ orUnit 0 (remaining axes j) = i ∧ R i = X j := by
  have e : ∀ x y : V, (if o.gt y x then y else x) = Max.max x y := by
    intro x y
    rw [hgt]
    by_cases hxy : x < y
    · simp [hxy, max_eq_right hxy.le]
    · simp [hxy, max_eq_left (not_lt.1 hxy)]
  have hm' : (fun x y : V => if o.gt y x then y else x) = Max.max := by
    funext x y; exact e x y
  obtain ⟨R, r1, r2⟩ := plain_fold (hm := hm) (junk := junk) hin hX sh
    (fun (_ : Unit) m v => ((), if o.gt v m then v else m)) o.lowest () id
    Max.max id (fun x => max_eq_left (hlow x)) (fun _ _ => rfl) rfl id (fun x v => by simp [e])
  refine ⟨R, ?_, fun i hi => ?_⟩
  · have : (fun out => maxKernel o a out axes) = fun out => oneOut a out axes
        (plainItem a fun (_ : Unit) m v => ((), if o.gt v m then v else m)) o.lowest () id Max.max id := by
      unfold maxKernel
      rw [hm']
    rw [this]
    exact r1
  · have hE := order_enumerates hin.axes hi
    have hn := enumerates_length hin.axes hin.pos hi hE
    have hR := r2 i hi _ hE
    simp only [id] at hR
    have key : ∀ l : List (List Int),
        (∀ j ∈ l, X j ≤ (l.map X).foldr Max.max o.lowest) ∧
        (l ≠ [] → ∃ j ∈ l, (l.map X).foldr Max.max o.lowest = X j) := by
      intro l
      induction l with
      | nil => simp
      | cons x l ih =>
        simp only [List.map_cons, List.foldr_cons, List.mem_cons, forall_eq_or_imp, le_max_iff,
          le_refl, true_or, true_and, exists_eq_or_imp]
        refine ⟨fun j hj => .inr (ih.1 j hj), fun _ => ?_⟩
        by_cases hl : l = []
        · subst hl
          left
          simp [hlow]
        · obtain ⟨j, hj, hjm⟩ := ih.2 hl
          rcases max_choice (X x) ((l.map X).foldr Max.max o.lowest) with hc | hc
          · exact .inl hc
          · exact .inr ⟨j, hj, hc.trans hjm⟩
    obtain ⟨k1, k2⟩ := key (order a.shape axes i)
    rw [hR]
    refine ⟨fun j hj hji => k1 j ((hE.2 j).2 ⟨hj, hji⟩), ?_⟩
    obtain ⟨j, hj, hjm⟩ := k2 (by
      intro e
      have := n_pos hin.axes hin.pos
      rw [e] at hn
      simp at hn
      omega)
    exact ⟨j, ((hE.2 j).1 hj).1, ((hE.2 j).1 hj).2, hjm⟩

end Bliss.Gpu
