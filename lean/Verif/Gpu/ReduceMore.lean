import Verif.Gpu.ReduceProps

/-!
# C85 continued: reductions with a mask, and mean with standard deviation
-/

namespace Bliss.Gpu

open Bliss.Nd Bliss.Stat

variable {V Acc L σ : Type}

/-! ## With a mask -/

/-- What the theorems ask of the mask: the shape of the data, and no offset. -/
structure DeviceMask (hm : Heap UInt8) (a m : Arr) (Y : List Int → UInt8) : Prop where
  shape : m.shape = a.shape
  noOffset : m.base = 0
  contains : hm.Contains m Y

/-- **C85 (masked).** Reproducible, for any arithmetic. Missing: as in `C85_reproducible_partial`,
for the mask as well. -/
theorem C85_masked_reproducible_partial (o : GpuOps V) (op : MaskedOp) (h : Heap V)
    (hm : Heap UInt8) (a m : Arr) (axes : List Int) (junk : Int → V) (sh : Nat → Nat → V × V × Nat)
    (X : List Int → V) (Y : List Int → UInt8) (hin : DeviceInput h a axes) (hX : h.Contains a X)
    (hY : DeviceMask hm a m Y) :
    ∃ R, DeviceReturns (fun out => maskedKernel o op a m out axes) h hm a axes junk sh R := by
  obtain ⟨R, r1, r2, r3, -⟩ := one_returns (hm := hm) (sh := sh) (junk := junk) hin.axes hin.pos
    hin.rank hin.owned (maskedItem a m (countStep o)) (o.zero, o.zero, 0) (o.zero, o.zero) id
    (mergeCount o) (maskedWrite o op)
    (fun B G => maskedItems (countStep o) rfl rfl hin.noOffset (alloc_contains hin hX) hY.shape
      hY.noOffset hY.contains)
  exact ⟨R, r1, r2, r3⟩

instance (sqrt : ℚ → ℚ) : Std.Associative (mergeCount (gpuRat sqrt)) :=
  ⟨fun x y z => by simp [mergeCount, gpuRat, add_assoc]⟩

instance (sqrt : ℚ → ℚ) : Std.Commutative (mergeCount (gpuRat sqrt)) :=
  ⟨fun x y => by simp [mergeCount, gpuRat, add_comm]⟩

/-- What an element contributes. -/
def maskedValue (X : List Int → ℚ) (Y : List Int → UInt8) (j : List Int) : ℚ × ℚ × Nat :=
  if Y j = 0 then (X j, X j * X j, 1) else (0, 0, 0)

theorem foldr_masked (sqrt : ℚ → ℚ) (X : List Int → ℚ) (Y : List Int → UInt8)
    (l : List (List Int)) :
    (l.map (maskedValue X Y)).foldr (mergeCount (gpuRat sqrt)) (0, 0, 0) =
      (((l.filter fun j => Y j = 0).map X).sum, ((l.filter fun j => Y j = 0).map
        fun j => X j * X j).sum, (l.filter fun j => Y j = 0).length) := by
  induction l with
  | nil => rfl
  | cons x l ih =>
    rw [List.map_cons, List.foldr_cons, ih]
    by_cases hx : Y x = 0
    · simp [mergeCount, gpuRat, maskedValue, hx, Nat.add_comm]
    · simp [mergeCount, gpuRat, maskedValue, hx]

theorem countStep_exact (sqrt : ℚ → ℚ) (X : List Int → ℚ) (Y : List Int → UInt8) (j : List Int)
    (x : ℚ × ℚ × Nat) :
    (if Y j = 0 then countStep (gpuRat sqrt) (0, 0) x (X j) else ((0, 0), x)) =
      ((0, 0), mergeCount (gpuRat sqrt) x (maskedValue X Y j)) := by
  by_cases hx : Y j = 0
  · simp only [hx, if_true, countStep, kahan_exact, maskedValue, mergeCount]
    rfl
  · simp [hx, maskedValue, mergeCount, gpuRat]

/-- **C85 (masked, exact).** In exact arithmetic, element `i` of a masked sum, mean, standard
deviation or variance on the device is that of the input elements with remaining index `i` whose
mask is 0; for the last three some element must be unmasked. Missing: as in
`C85_reproducible_partial`, for the mask as well; nothing unmasked (`C85_all_masked`). -/
theorem C85_masked_partial (sqrt : ℚ → ℚ) (op : MaskedOp) (h : Heap ℚ)
    (hm : Heap UInt8) (a m : Arr) (axes : List Int) (junk : Int → ℚ) (sh : Nat → Nat → ℚ × ℚ × Nat)
    (X : List Int → ℚ) (Y : List Int → UInt8) (hin : DeviceInput h a axes) (hX : h.Contains a X)
    (hY : DeviceMask hm a m Y) :
    ∃ R, DeviceReturns (fun out => maskedKernel (gpuRat sqrt) op a m out axes)
        h hm a axes junk sh R ∧
      ∀ i, ValidIdx (orUnit 1 (remaining axes a.shape)) i → ∀ l, Enumerates a.shape axes i l →
        ∀ u, u = l.filter (fun j => Y j = 0) → u ≠ [] ∨ op = .sum →
        R i = match op with
          | .sum => (u.map X).sum
          | .mean => (u.map X).sum / u.length
          | .stddev => sqrt (popVar X u)
          | .var => popVar X u := by
  obtain ⟨R, r1, r2, r3, r4⟩ := one_fold (hm := hm) (sh := sh) (junk := junk) hin.axes hin.pos
    hin.rank hin.owned (maskedItem a m (countStep (gpuRat sqrt))) (0, 0, 0) (0, 0) id
    (mergeCount (gpuRat sqrt)) (maskedWrite (gpuRat sqrt) op)
    (fun x => by simp [mergeCount, gpuRat]) (fun _ _ => rfl) rfl (maskedValue X Y)
    (fun B G => maskedItems (countStep (gpuRat sqrt)) rfl rfl hin.noOffset (alloc_contains hin hX)
      hY.shape hY.noOffset hY.contains)
    (fun B G i x => countStep_exact sqrt X Y _ x)
  refine ⟨R, ⟨r1, r2, r3⟩, fun i hi l hl u hu hne => (r4 i hi l hl).trans ?_⟩
  rw [foldr_masked, ← hu]
  cases op with
  | sum => rfl
  | mean => rfl
  | stddev =>
    rcases hne with hne | hne
    · exact congrArg sqrt (variance_exact sqrt X u hne)
    · cases hne
  | var =>
    rcases hne with hne | hne
    · exact variance_exact sqrt X u hne
    · cases hne

/-! ## Two outputs -/

/-- Every schedule ends, with the same two new arrays of the given contents, and changes no existing
array. -/
def DeviceReturns2 (kernel : Arr → Arr → RKernel V Acc L σ) (h : Heap V) (hm : Heap UInt8) (a : Arr)
    (axes : List Int) (junk1 junk2 : Int → V) (sh : Nat → Nat → Acc) (R S : List Int → V) : Prop :=
  (∃ o, GpuReduce2 kernel h hm a axes junk1 junk2 sh o) ∧
  ReduceTerminates2 kernel h hm a axes junk1 junk2 sh ∧
  ∀ o, GpuReduce2 kernel h hm a axes junk1 junk2 sh o →
    Returns2 h o (orUnit 1 (remaining axes a.shape)) R S

section Two

variable {h : Heap V} {hm : Heap UInt8} {a : Arr} {axes : List Int} {junk1 junk2 : Int → V}
  {sh : Nat → Nat → Acc} {kernel : Arr → Arr → RKernel V Acc L σ} {w1 w2 : Acc → V}
  {outAt : Nat → σ}

/-- The first output. -/
def outA (h : Heap V) (a : Arr) (axes : List Int) (junk1 : Int → V) : Heap V × Arr :=
  alloc h (outShape a axes) junk1

/-- The second. -/
def outB (h : Heap V) (a : Arr) (axes : List Int) (junk1 junk2 : Int → V) : Heap V × Arr :=
  alloc (outA h a axes junk1).1 (outShape a axes) junk2

theorem two_contains {X : List Int → V} (hin : DeviceInput h a axes) (hX : h.Contains a X) :
    (outB h a axes junk1 junk2).1.Contains a X := by
  have hp := out_pos hin.axes hin.pos
  obtain ⟨-, -, -, -, p5, p6, p7⟩ := alloc_props h (outShape a axes) junk1
    (fun s hs => (hp s hs).le)
  obtain ⟨-, -, -, -, -, -, q7⟩ := alloc_props (outA h a axes junk1).1 (outShape a axes) junk2
    (fun s hs => (hp s hs).le)
  have ho := hin.owned
  refine Contains.frame (Contains.frame hX hin.owned p7) ?_ q7
  show a.blk < (alloc h (outShape a axes) junk1).1.next
  omega

/-- The outputs fit. -/
theorem two_fits (hin : DeviceInput h a axes) (K : RKernel V Acc L σ) (hs : K.shape = a.shape)
    (hf : K.flags = axisFlags a axes) (hn : K.n = (count a axes).toNat)
    (hnum : K.numel = (outA h a axes junk1).2.numel.toNat)
    (hrk : K.outRank = (outA h a axes junk1).2.shape.length)
    (houts : ∀ k, K.outs (outAt k) = [(h.next, w1), (h.next + 1, w2)].map fun w =>
      (RAddr.glob w.1 (sdot (outA h a axes junk1).2.strides
        (indexOf (outA h a axes junk1).2.shape k)), w.2))
    (hfirst : ∀ b < K.numel, K.first b = outAt b)
    (hnext : ∀ k, k + RKernel.gridSize K.numel < K.numel →
      K.next (RKernel.gridSize K.numel) (outAt k) = outAt (k + RKernel.gridSize K.numel)) :
    K.Fits a (outA h a axes junk1).2 axes (outB h a axes junk1 junk2).1
      [(h.next, w1), (h.next + 1, w2)] outAt := by
  have hp := out_pos hin.axes hin.pos
  obtain ⟨p1, p2, p3, p4, p5, p6, p7⟩ := alloc_props h (outShape a axes) junk1
    (fun s hs => (hp s hs).le)
  obtain ⟨q1, q2, q3, q4, q5, q6, q7⟩ := alloc_props (outA h a axes junk1).1 (outShape a axes) junk2
    (fun s hs => (hp s hs).le)
  have ho := hin.owned
  have hnx : (outA h a axes junk1).1.next = h.next + 1 := p6
  exact
    { shape := hs, flags := hf, n := hn, numel := hnum, outRank := hrk, pos := hin.pos
      posO := by show ∀ s ∈ (alloc h (outShape a axes) junk1).2.shape, 0 < s; rw [p1]; exact hp
      rank := ⟨hin.rank, by
        show (alloc h (outShape a axes) junk1).2.shape.length ≤ 4
        rw [p1]; exact out_rank hin.axes hin.rank⟩
      base := alloc_base _ _ _
      distinct := p3
      outs := houts
      first := hfirst
      next := hnext
      nodup := by simp
      fresh := by
        simp only [List.mem_cons, List.not_mem_nil, or_false, forall_eq_or_imp, forall_eq]
        omega
      mapped := by
        simp only [List.mem_cons, List.not_mem_nil, or_false, forall_eq_or_imp, forall_eq]
        constructor
        · intro idx hi
          show (alloc (outA h a axes junk1).1 (outShape a axes) junk2).1.mem _ _ ≠ none
          rw [q7 h.next (by omega)]
          exact p4 idx hi
        · intro idx hi
          rw [show (outA h a axes junk1).2.shape = outShape a axes from p1] at hi
          have := q4 idx (by rw [q1]; exact hi)
          rw [Heap.get, q5, hnx] at this
          exact this }

theorem two_returns (hin : DeviceInput h a axes)
    (F : (kernel (outA h a axes junk1).2 (outB h a axes junk1 junk2).2).Fits a
      (outA h a axes junk1).2 axes (outB h a axes junk1 junk2).1
      [(h.next, w1), (h.next + 1, w2)] outAt)
    (I : (kernel (outA h a axes junk1).2 (outB h a axes junk1 junk2).2).Items a.blk
      (reduceMem (outB h a axes junk1 junk2).1 hm
        (RKernel.blockSize (kernel (outA h a axes junk1).2 (outB h a axes junk1 junk2).2).n)
        (RKernel.gridSize (kernel (outA h a axes junk1).2 (outB h a axes junk1 junk2).2).numel) sh)) :
    ∃ val : List Int → Acc,
      DeviceReturns2 kernel h hm a axes junk1 junk2 sh (fun i => w1 (val i)) (fun i => w2 (val i)) ∧
      ∀ i, ValidIdx (orUnit 1 (remaining axes a.shape)) i →
        ∃ k, indexOf (orUnit 1 (remaining axes a.shape)) k = i ∧
          (remaining axes a.shape = [] → k = 0) ∧
          ((∀ k t, ((F.sem I).part (RKernel.blockSize (kernel (outA h a axes junk1).2
              (outB h a axes junk1 junk2).2).n) k t
              (kernel (outA h a axes junk1).2 (outB h a axes junk1 junk2).2).comp).1 =
              (kernel (outA h a axes junk1).2 (outB h a axes junk1 junk2).2).comp) →
            val i = (F.sem I).total (RKernel.blockSize (kernel (outA h a axes junk1).2
              (outB h a axes junk1 junk2).2).n) k
              fun _ => (kernel (outA h a axes junk1).2 (outB h a axes junk1 junk2).2).comp) := by
  have hp := out_pos hin.axes hin.pos
  obtain ⟨p1, p2, p3, p4, p5, p6, p7⟩ := alloc_props h (outShape a axes) junk1
    (fun s hs => (hp s hs).le)
  obtain ⟨q1, q2, q3, q4, q5, q6, q7⟩ := alloc_props (outA h a axes junk1).1 (outShape a axes) junk2
    (fun s hs => (hp s hs).le)
  have hnx : (outA h a axes junk1).1.next = h.next + 1 := p6
  obtain ⟨val, v1, v2, v3, v4, v5⟩ := F.launch (by rw [F.n]; exact n_pos hin.axes hin.pos) I
    ((outA h a axes junk1).2, (outB h a axes junk1 junk2).2)
  have hgr : ∀ o, GpuReduce2 kernel h hm a axes junk1 junk2 sh o ↔
      RLaunch (kernel (outA h a axes junk1).2 (outB h a axes junk1 junk2).2)
        (outB h a axes junk1 junk2).1 hm sh
        ((outA h a axes junk1).2, (outB h a axes junk1 junk2).2) o := by
    intro o
    unfold GpuReduce2
    rw [axes_ok hin.axes]
    simp only [Bool.false_eq_true, if_false]
    rfl
  have hk : ∀ i, ∃ k, ValidIdx (outA h a axes junk1).2.shape i →
      k < (kernel (outA h a axes junk1).2 (outB h a axes junk1 junk2).2).numel ∧
        indexOf (outA h a axes junk1).2.shape k = i := by
    intro i
    by_cases hi : ValidIdx (outA h a axes junk1).2.shape i
    · obtain ⟨k, h1, h2⟩ := F.surj hi
      exact ⟨k, fun _ => ⟨h1, h2⟩⟩
    · exact ⟨0, fun h => absurd h hi⟩
  choose kOf hkOf using hk
  have hsh : (outA h a axes junk1).2.shape = orUnit 1 (remaining axes a.shape) := by
    show (alloc h (outShape a axes) junk1).2.shape = _
    rw [p1, outShape_eq hin.axes]
  have hsh' : (outB h a axes junk1 junk2).2.shape = orUnit 1 (remaining axes a.shape) := by
    show (alloc (outA h a axes junk1).1 (outShape a axes) junk2).2.shape = _
    rw [q1, outShape_eq hin.axes]
  refine ⟨fun i => val (kOf i), ⟨?_, v4, ?_⟩, ?_⟩
  · obtain ⟨o, ho⟩ := v3
    exact ⟨o, (hgr o).2 ho⟩
  · intro o ho
    obtain ⟨h', rfl, e2, e3, e4⟩ := v5 o ((hgr o).1 ho)
    refine ⟨h', _, _, rfl, hsh, hsh', p5, ?_, ?_, ?_, ?_, ?_⟩
    · show (alloc (outA h a axes junk1).1 (outShape a axes) junk2).2.blk = _
      rw [q5, hnx]
    · rw [e2]
      show (alloc (outA h a axes junk1).1 (outShape a axes) junk2).1.next = _
      rw [q6, hnx]
    · intro i hi
      obtain ⟨k1, k2⟩ := hkOf i hi
      have := e3 _ k1 (h.next, w1) (by simp)
      simp only [k2] at this
      exact this
    · intro i hi
      obtain ⟨k1, k2⟩ := hkOf i (by rw [hsh]; rw [hsh'] at hi; exact hi)
      have := e3 _ k1 (h.next + 1, w2) (by simp)
      simp only [k2] at this
      rw [Heap.get]
      show h'.mem (alloc (outA h a axes junk1).1 (outShape a axes) junk2).2.blk _ = _
      rw [q5, hnx]
      exact this
    · intro b hb'
      rw [e4 b (by simp; omega)]
      show (alloc (outA h a axes junk1).1 (outShape a axes) junk2).1.mem b = _
      rw [q7 b (by omega)]
      exact p7 b hb'
  · intro i hi
    rw [← hsh] at hi
    obtain ⟨k1, k2⟩ := hkOf i hi
    refine ⟨kOf i, by rw [← hsh]; exact k2, ?_, ?_⟩
    · intro he
      have : (outA h a axes junk1).2.numel = 1 := by
        unfold Arr.numel
        rw [hsh, he]
        simp [orUnit]
      rw [F.numel, this] at k1
      simpa using k1
    · intro hc
      exact v1 hc _ k1

/-- Two outputs of a commutative fold. -/
theorem two_fold (hin : DeviceInput h a axes)
    (F : (kernel (outA h a axes junk1).2 (outB h a axes junk1 junk2).2).Fits a
      (outA h a axes junk1).2 axes (outB h a axes junk1 junk2).1
      [(h.next, w1), (h.next + 1, w2)] outAt)
    (I : (kernel (outA h a axes junk1).2 (outB h a axes junk1 junk2).2).Items a.blk
      (reduceMem (outB h a axes junk1 junk2).1 hm
        (RKernel.blockSize (kernel (outA h a axes junk1).2 (outB h a axes junk1 junk2).2).n)
        (RKernel.gridSize (kernel (outA h a axes junk1).2 (outB h a axes junk1 junk2).2).numel) sh))
    (zero : Acc) (norm : Acc → Acc) (op : Acc → Acc → Acc) [Std.Associative op]
    [Std.Commutative op] (he : ∀ x, op x zero = x)
    (hφ : ∀ x y, norm (op x y) = op (norm x) (norm y)) (hφ0 : norm zero = zero)
    (hz : (kernel (outA h a axes junk1).2 (outB h a axes junk1 junk2).2).zero = zero)
    (hmg : (kernel (outA h a axes junk1).2 (outB h a axes junk1 junk2).2).merge = op)
    (hnorm : (kernel (outA h a axes junk1).2 (outB h a axes junk1 junk2).2).norm = norm)
    (v : List Int → Acc)
    (hf : ∀ i x, I.f i (kernel (outA h a axes junk1).2 (outB h a axes junk1 junk2).2).comp x =
      ((kernel (outA h a axes junk1).2 (outB h a axes junk1 junk2).2).comp,
        op x (v (i.map fun (n : Nat) => (n : Int))))) :
    ∃ val : List Int → Acc,
      DeviceReturns2 kernel h hm a axes junk1 junk2 sh (fun i => w1 (val i)) (fun i => w2 (val i)) ∧
      ∀ i, ValidIdx (orUnit 1 (remaining axes a.shape)) i → ∀ l, Enumerates a.shape axes i l →
        val i = norm ((l.map v).foldr op zero) := by
  obtain ⟨val, r1, r4⟩ := two_returns hin F I
  refine ⟨val, r1, fun i hi l hl => ?_⟩
  obtain ⟨k, k1, k2, k4⟩ := r4 i hi
  have hn : 0 < (kernel (outA h a axes junk1).2 (outB h a axes junk1 junk2).2).n := by
    rw [F.n]; exact n_pos hin.axes hin.pos
  have ht := fun k => RKernel.total_fold (F.sem I) op (by rw [hz]; exact he) hmg
    (by rw [hnorm]; exact hφ) (by rw [hnorm, hz]; exact hφ0)
    (fun i => v (i.map fun (n : Nat) => (n : Int))) hf hn k
  rw [k4 fun k t => (ht k).2 t, (ht k).1, hnorm, hz]
  refine congrArg norm ?_
  have hE := elements_enumerate (a := a) (axes := axes) (k := k) hin.pos k2
  rw [k1] at hE
  have hp := (enumerates_perm hE hl).map v
  have hlc : LeftCommutative op := ⟨fun x y z => by
    rw [← Std.Associative.assoc (op := op), Std.Commutative.comm (op := op) x y,
      Std.Associative.assoc (op := op)]⟩
  rw [← hp.foldr_eq]
  unfold elements RKernel.idx
  rw [List.map_map, ← count_redSize hin.axes hin.pos, F.n, F.shape, F.flags]
  rfl

end Two

/-! ### mean and standard deviation in one call -/

/-- When the second output index is right: every block computes one result, or the outputs have one
dimension. -/
def SmallOutput (a : Arr) (axes : List Int) : Prop :=
  (orUnit 1 (remaining axes a.shape)).foldl (· * ·) 1 ≤ 1024 ∨
    (orUnit 1 (remaining axes a.shape)).length = 1

theorem advanceVar_one (n k G : Nat) (hk : k + G < n) :
    advanceVar [(n : Int)] [k] G = ([k + G], G, true) := by
  simp [advanceVar, hk]

theorem mean_stddev_next {a : Arr} {axes : List Int} {h : Heap V} {junk1 : Int → V}
    (hin : DeviceInput h a axes) (hs : SmallOutput a axes) (k : Nat)
    (hk : k + RKernel.gridSize (outA h a axes junk1).2.numel.toNat <
      (outA h a axes junk1).2.numel.toNat) :
    let G := RKernel.gridSize (outA h a axes junk1).2.numel.toNat
    let shape := (outA h a axes junk1).2.shape
    (advanceVar shape (startIndex shape k).1 G).1 = (startIndex shape (k + G)).1 ∧
    (advanceVar shape (startIndex shape k).1
      (advanceVar shape (startIndex shape k).1 G).2.1).1 = (startIndex shape (k + G)).1 := by
  intro G shape
  have hp := out_pos hin.axes hin.pos
  have hsh : shape = orUnit 1 (remaining axes a.shape) := by
    rw [← outShape_eq hin.axes]
    exact (alloc_props h (outShape a axes) junk1 (fun s hs => (hp s hs).le)).1
  have hnum : (outA h a axes junk1).2.numel = shape.foldl (· * ·) 1 := rfl
  rcases hs with hs | hs
  · rw [← hsh, ← hnum] at hs
    simp only [RKernel.gridSize] at hk
    omega
  · rw [← hsh] at hs
    obtain ⟨n, hn⟩ := List.length_eq_one_iff.1 hs
    have hpos : 0 < n := hp n (by rw [outShape_eq hin.axes, ← hsh, hn]; simp)
    obtain ⟨n, rfl⟩ : ∃ m : Nat, n = m := ⟨n.toNat, by omega⟩
    have hlt : k + G < n := by
      have : (outA h a axes junk1).2.numel.toNat = n := by rw [hnum, hn]; simp
      rw [this] at hk
      simp only [G, this]
      exact hk
    rw [hn]
    have h1 : (startIndex [(n : Int)] k).1 = [k] := by
      simp [startIndex, Nat.mod_eq_of_lt (by omega : k < n)]
    have h2 : (startIndex [(n : Int)] (k + G)).1 = [k + G] := by
      simp [startIndex, Nat.mod_eq_of_lt hlt]
    rw [h1, h2, advanceVar_one n k G hlt]
    simp only [advanceVar_one n k G hlt, and_self]

section MeanStddev

variable {h : Heap V} {hm : Heap UInt8} {a : Arr} {axes : List Int} {junk1 junk2 : Int → V}

theorem mean_stddev_fits (o : GpuOps V) (hin : DeviceInput h a axes) (hs : SmallOutput a axes) :
    (meanStddevKernel o a (outA h a axes junk1).2 (outB h a axes junk1 junk2).2 axes).Fits a
      (outA h a axes junk1).2 axes (outB h a axes junk1 junk2).1
      [(h.next, Prod.fst), (h.next + 1, fun x => o.sqrt (variance o x.1 x.2))]
      (fun k => ((startIndex (outA h a axes junk1).2.shape k).1,
        (startIndex (outA h a axes junk1).2.shape k).1)) := by
  have hp := out_pos hin.axes hin.pos
  have hA : (outA h a axes junk1).2.blk = h.next := rfl
  have hB : (outB h a axes junk1 junk2).2.blk = h.next + 1 := rfl
  refine two_fits hin _ rfl rfl rfl rfl rfl (fun k => ?_) (fun b _ => rfl) (fun k hk => ?_)
  · show [(outAddr _ _, _), (outAddr _ _, _)] = _
    simp only [outAddr, hA, hB]
    rfl
  · obtain ⟨e1, e2⟩ := mean_stddev_next hin hs k hk
    exact Prod.ext e1 e2

theorem masked_mean_stddev_fits (o : GpuOps V) (m : Arr) (hin : DeviceInput h a axes) :
    (maskedMeanStddevKernel o a m (outA h a axes junk1).2 (outB h a axes junk1 junk2).2 axes).Fits a
      (outA h a axes junk1).2 axes (outB h a axes junk1 junk2).1
      [(h.next, maskedWrite o .mean), (h.next + 1, maskedWrite o .stddev)]
      (fun k => (startIndex (outA h a axes junk1).2.shape k).1) := by
  have hp := out_pos hin.axes hin.pos
  have hA : (outA h a axes junk1).2.blk = h.next := rfl
  have hB : (outB h a axes junk1 junk2).2.blk = h.next + 1 := rfl
  refine two_fits hin _ rfl rfl rfl rfl rfl (fun k => ?_) (fun b _ => rfl) (fun k hk => ?_)
  · show [(outAddr _ _, _), (outAddr _ _, _)] = _
    simp only [outAddr, hA, hB]
    rfl
  · have hp' : ∀ s ∈ (outA h a axes junk1).2.shape, 0 < s := by
      intro s hs
      rw [show (outA h a axes junk1).2.shape = outShape a axes from
        (alloc_props h (outShape a axes) junk1 (fun s hs => (hp s hs).le)).1] at hs
      exact hp s hs
    show (advance _ _ _).1 = _
    rw [advance_start _ k _ hp']

end MeanStddev

/-- **C85 (mean and standard deviation in one call).** Reproducible for any arithmetic, when every
block computes one result or the outputs have one dimension. Missing: as in
`C85_reproducible_partial`; larger outputs with two or more dimensions, for which the code stores
standard deviations in the wrong place (`C85_mean_stddev_index`). -/
theorem C85_mean_stddev_reproducible_partial (o : GpuOps V) (h : Heap V) (hm : Heap UInt8) (a : Arr)
    (axes : List Int) (junk1 junk2 : Int → V) (sh : Nat → Nat → V × V) (X : List Int → V)
    (hin : DeviceInput h a axes) (hX : h.Contains a X) (hs : SmallOutput a axes) :
    ∃ R S, DeviceReturns2 (fun out out2 => meanStddevKernel o a out out2 axes)
      h hm a axes junk1 junk2 sh R S := by
  obtain ⟨val, hv, -⟩ := two_returns (kernel := fun out out2 => meanStddevKernel o a out out2 axes)
    (sh := sh) (hm := hm) hin (mean_stddev_fits (junk1 := junk1) (junk2 := junk2) o hin hs)
    (plainItems (squareStep o) rfl rfl hin.noOffset (two_contains hin hX))
  exact ⟨_, _, hv⟩

/-- **C85 (mean and standard deviation in one call, exact).** -/
theorem C85_mean_stddev_partial (sqrt : ℚ → ℚ) (h : Heap ℚ) (hm : Heap UInt8) (a : Arr)
    (axes : List Int) (junk1 junk2 : Int → ℚ) (sh : Nat → Nat → ℚ × ℚ) (X : List Int → ℚ)
    (hin : DeviceInput h a axes) (hX : h.Contains a X) (hs : SmallOutput a axes) :
    ∃ R S, DeviceReturns2 (fun out out2 => meanStddevKernel (gpuRat sqrt) a out out2 axes)
      h hm a axes junk1 junk2 sh R S ∧
      ∀ i, ValidIdx (orUnit 1 (remaining axes a.shape)) i → ∀ l, Enumerates a.shape axes i l →
        R i = (l.map X).sum / l.length ∧ S i = sqrt (popVar X l) := by
  obtain ⟨val, hv, hval⟩ := two_fold
    (kernel := fun out out2 => meanStddevKernel (gpuRat sqrt) a out out2 axes)
    (sh := sh) (hm := hm) hin
    (mean_stddev_fits (junk1 := junk1) (junk2 := junk2) (gpuRat sqrt) hin hs)
    (plainItems (squareStep (gpuRat sqrt)) rfl rfl hin.noOffset (two_contains hin hX))
    (0, 0) (fun x => (x.1 / ((count a axes).toNat : ℚ), x.2 / ((count a axes).toNat : ℚ)))
    addPair (fun x => by simp [addPair])
    (fun _ _ => by simp [addPair, add_div]) (by simp) rfl rfl rfl (fun j => (X j, X j * X j))
    (fun i x => by
      show squareStep (gpuRat sqrt) (0, 0) x _ = _
      simp only [squareStep, kahan_exact, addPair]
      rfl)
  refine ⟨_, _, hv, fun i hi l hl => ?_⟩
  have hn := enumerates_length hin.axes hin.pos hi hl
  have hne : l ≠ [] := by
    intro e
    have := n_pos hin.axes hin.pos
    rw [e] at hn
    simp at hn
    omega
  have e := hval i hi l hl
  rw [foldr_addPair X (fun j => X j * X j) l, ← hn] at e
  rw [e]
  exact ⟨rfl, congrArg sqrt (variance_exact sqrt X l hne)⟩

/-- **C85 (masked mean and standard deviation in one call, exact).** Here the outputs may have any
size. Missing: as in `C85_masked_partial`. -/
theorem C85_masked_mean_stddev_partial (sqrt : ℚ → ℚ) (h : Heap ℚ) (hm : Heap UInt8) (a m : Arr)
    (axes : List Int) (junk1 junk2 : Int → ℚ) (sh : Nat → Nat → ℚ × ℚ × Nat) (X : List Int → ℚ)
    (Y : List Int → UInt8) (hin : DeviceInput h a axes) (hX : h.Contains a X)
    (hY : DeviceMask hm a m Y) :
    ∃ R S, DeviceReturns2 (fun out out2 => maskedMeanStddevKernel (gpuRat sqrt) a m out out2 axes)
      h hm a axes junk1 junk2 sh R S ∧
      ∀ i, ValidIdx (orUnit 1 (remaining axes a.shape)) i → ∀ l, Enumerates a.shape axes i l →
        ∀ u, u = l.filter (fun j => Y j = 0) → u ≠ [] →
        R i = (u.map X).sum / u.length ∧ S i = sqrt (popVar X u) := by
  obtain ⟨val, hv, hval⟩ := two_fold
    (kernel := fun out out2 => maskedMeanStddevKernel (gpuRat sqrt) a m out out2 axes)
    (sh := sh) (hm := hm) hin
    (masked_mean_stddev_fits (junk1 := junk1) (junk2 := junk2) (gpuRat sqrt) m hin)
    (maskedItems (countStep (gpuRat sqrt)) rfl rfl hin.noOffset (two_contains hin hX)
      hY.shape hY.noOffset hY.contains)
    (0, 0, 0) id (mergeCount (gpuRat sqrt))
    (fun x => by simp [mergeCount, gpuRat]) (fun _ _ => rfl) rfl rfl rfl rfl (maskedValue X Y)
    (fun i x => countStep_exact sqrt X Y _ x)
  refine ⟨_, _, hv, fun i hi l hl u hu hne => ?_⟩
  have e := hval i hi l hl
  rw [foldr_masked, ← hu] at e
  rw [e]
  exact ⟨rfl, congrArg sqrt (variance_exact sqrt X u hne)⟩

/-- **C85 (masked mean and standard deviation in one call).** Reproducible for any arithmetic. -/
theorem C85_masked_mean_stddev_reproducible_partial (o : GpuOps V) (h : Heap V) (hm : Heap UInt8)
    (a m : Arr) (axes : List Int) (junk1 junk2 : Int → V) (sh : Nat → Nat → V × V × Nat)
    (X : List Int → V) (Y : List Int → UInt8)
    (hin : DeviceInput h a axes) (hX : h.Contains a X) (hY : DeviceMask hm a m Y) :
    ∃ R S, DeviceReturns2 (fun out out2 => maskedMeanStddevKernel o a m out out2 axes)
      h hm a axes junk1 junk2 sh R S := by
  obtain ⟨val, hv, -⟩ := two_returns
    (kernel := fun out out2 => maskedMeanStddevKernel o a m out out2 axes) (sh := sh) (hm := hm) hin
    (masked_mean_stddev_fits (junk1 := junk1) (junk2 := junk2) o m hin)
    (maskedItems (countStep o) rfl rfl hin.noOffset (two_contains hin hX)
      hY.shape hY.noOffset hY.contains)
  exact ⟨_, _, hv⟩

end Bliss.Gpu
