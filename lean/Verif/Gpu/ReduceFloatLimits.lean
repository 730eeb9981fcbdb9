import Verif.Gpu.ReduceFloat
import Verif.Gpu.ReduceLimits

/-!
# C88: where the device sums are not accurate
-/

namespace Bliss.Gpu

open Bliss.Nd Bliss.Stat Bliss.Float

/-- `float`: round to nearest even with 24 bits has relative error at most `2^-24`. -/
theorem float_relErr : RelErr (rne 24) (2 ^ (-24 : ℤ)) := by
  intro z
  have := rne_err (p := 24) z
  rw [mul_comm] at this
  exact_mod_cast this

/-- `double`. -/
theorem double_relErr : RelErr (rne 53) (2 ^ (-53 : ℤ)) := by
  intro z
  have := rne_err (p := 53) z
  rw [mul_comm] at this
  exact_mod_cast this

theorem rne24_int (m : ℤ) (h : |m| ≤ 2 ^ 24) : rne 24 m = m :=
  (nearestEven 24 (by norm_num)).int m h

theorem rne24_exact (m e : ℤ) (h : |m| ≤ 2 ^ 24) : rne 24 (m * 2 ^ e) = m * 2 ^ e :=
  (nearestEven 24 (by norm_num)).exact m e h

theorem rne24_zero : rne 24 0 = 0 := by simpa using rne24_int 0 (by norm_num)
theorem rne24_one : rne 24 1 = 1 := by simpa using rne24_int 1 (by norm_num)
theorem rne24_neg_one : rne 24 (-1) = -1 := by simpa using rne24_int (-1) (by norm_num)

theorem rne24_big : rne 24 33554432 = 33554432 := by
  have := rne24_exact 1 25 (by norm_num)
  norm_num at this
  exact this

/-- The unit is lost in a sum with `2^25`. -/
theorem rne24_lost : rne 24 (33554432 + 1) = 33554432 := by
  have := rne_eq (p := 24) (x := 33554432 + 1) (e := 25) (n := 8388608) (by norm_num)
    (by norm_num) (by norm_num)
  rw [this]
  norm_num

namespace RKernel

variable {σ : Type} {s0 : Mem RAddr (RCell ℚ ℚ)}

/-- Two threads and three elements per result: the compensation left by result 0 goes into result
1024. -/
theorem leak_total {K : RKernel ℚ ℚ ℚ σ} {G : Nat} (M : K.Sem s0 G) (hG : G = 1024) (hn : K.n = 3)
    (hz : K.zero = 0) (hc : K.comp = 0) (hnorm : K.norm = id)
    (hm : K.merge = fun x y => rne 24 (x + y)) (v : List Nat → ℚ)
    (hf : ∀ i c x, M.f i c x = kahanStep (rne 24) (c, x) (v i))
    (h0 : v (K.idx 0 0) = 33554432) (h1 : v (K.idx 0 1) = 0) (h2 : v (K.idx 0 2) = 1)
    (hrow : ∀ r < 3, v (K.idx 1024 r) = 0) (B : Nat) (hB : B = 2) :
    M.total B 1024 (M.regs B 1024) = 1 := by
  subst hB hG
  have g0 : gridStride 2 3 0 = [0, 2] := by decide
  have g1 : gridStride 2 3 1 = [1] := by decide
  have r0 := hrow 0 (by norm_num)
  have r1 := hrow 1 (by norm_num)
  have r2 := hrow 2 (by norm_num)
  have z := rne24_zero
  have o := rne24_one
  have s1 : kahanStep (rne 24) (0, 0) 33554432 = (0, 33554432) := by
    simp [kahanStep, rne24_big, z]
  have s2 : kahanStep (rne 24) (0, 33554432) 1 = (-1, 33554432) := by
    simp [kahanStep, z, o, rne24_lost, rne24_neg_one]
  have s3 : kahanStep (rne 24) (-1, 0) 0 = (0, 1) := by
    simp [kahanStep, z, o]
  have s4 : kahanStep (rne 24) (0, 1) 0 = (0, 1) := by
    simp [kahanStep, z, o]
  have hreg : M.regs 2 1024 0 = -1 := by
    simp [Sem.regs, Sem.regsFrom, Sem.part, hn, g0, Sem.accum, hf, h0, h2, hz, hc, s1, s2]
  have p0 : (M.part 2 1024 0 (M.regs 2 1024 0)).2 = 1 := by
    rw [hreg]
    simp [Sem.part, hn, g0, Sem.accum, hf, r0, r2, hz, s3, s4, hnorm]
  have p1 : (M.part 2 1024 1 (M.regs 2 1024 1)).2 = 0 := by
    have s5 : kahanStep (rne 24) (0, 0) 0 = (0, 0) := by simp [kahanStep, z]
    have hreg1 : M.regs 2 1024 1 = 0 := by
      simp [Sem.regs, Sem.regsFrom, Sem.part, hn, g1, Sem.accum, hf, hz, hc, h1, s5]
    rw [hreg1]
    simp [Sem.part, hn, g1, Sem.accum, hf, r1, hz, s5, hnorm]
  have hh : halvings 2 (2 / 2) = [1] := by decide
  simp only [Sem.total, root, hh, List.foldl_cons, List.foldl_nil, level, Nat.lt_one_iff, if_true,
    hm, zero_add]
  rw [p0, p1, add_zero, o]

end RKernel

/-- A row `2^25, 0, 1` followed by 1024 rows of zeros. -/
def leaky (j : List Int) : ℚ :=
  if j = [0, 0] then 33554432 else if j = [0, 2] then 1 else 0

/-- **C88 violated: the compensation leaks.** A thread keeps its Kahan compensation when it goes on to
the next result of its block. Adding the rows of an array of 1025 rows whose last row is all zeros,
the device returns 1 for that row, under every schedule, because of what is in the first row. The
arithmetic is IEEE single precision. -/
theorem C88_compensation_leaks (sqrt : ℚ → ℚ) (h : Heap ℚ) (hm : Heap UInt8) (a : Arr)
    (junk : Int → ℚ) (sh : Nat → Nat → ℚ) (hin : DeviceInput h a [1]) (hs : a.shape = [1025, 3])
    (hX : h.Contains a leaky) :
    (∀ j, ValidIdx a.shape j → remaining [1] j = [1024] → leaky j = 0) ∧
    ∃ R, DeviceReturns (fun out => sumKernel (gpuRound (rne 24) sqrt) a out [1]) h hm a [1] junk sh
        R ∧ R [1024] = 1 := by
  have hd : a.dims.length = 2 := by rw [← Stat.shape_length, hs]; rfl
  refine ⟨fun j hv hj => ?_, ?_⟩
  · rw [hs] at hv
    cases hv with
    | @cons _ x _ _ v1 v2 =>
      cases v2 with
      | @cons _ y _ _ v3 v4 =>
        cases v4
        have hx : x = 1024 := by simpa [remaining] using hj
        subst hx
        simp [leaky]
  have hrem : remaining [1] a.shape = [1025] := by rw [hs]; decide
  obtain ⟨R, r1, r2, r3, r4⟩ := one_returns (hm := hm) (sh := sh) (junk := junk) hin.axes hin.pos
    hin.rank hin.owned (plainItem a (sumStep (gpuRound (rne 24) sqrt))) 0 0 id
    (gpuRound (rne 24) sqrt).add id
    (fun B G => plainItems (sumStep (gpuRound (rne 24) sqrt)) rfl rfl hin.noOffset
      (alloc_contains hin hX))
  refine ⟨R, ⟨r1, r2, r3⟩, ?_⟩
  obtain ⟨k, k1, k2, k3, k4, -⟩ := r4 [1024] (by
    rw [hrem]; exact .cons ⟨by decide, by decide⟩ .nil)
  have hp := out_pos hin.axes hin.pos
  obtain ⟨p1, -⟩ := alloc_props h (outShape a [1]) junk (fun s hs => (hp s hs).le)
  have hnum : (alloc h (outShape a [1]) junk).2.numel = 1025 := by
    unfold Arr.numel
    rw [p1, outShape_eq hin.axes, hrem]
    decide
  have hk : k = 1024 := by
    rw [hnum] at k3
    rw [hrem] at k1
    simp only [orUnit, indexOf, startIndex, List.cons_ne_nil, if_false, List.map_cons, List.map_nil,
      List.cons.injEq, and_true] at k1
    have : ((k % 1025 : Nat) : Int) = 1024 := k1
    omega
  subst hk
  have hcount : (count a [1]).toNat = 3 := by
    rw [count_redSize hin.axes hin.pos, hs]
    simp [axisFlags, hd, allAxes, redSize, List.range_succ]
  have hidx : ∀ k r, (digits a.shape (axisFlags a [1]) r k).1 = [k % 1025, r % 3] := by
    intro k r
    rw [hs]
    simp [axisFlags, hd, allAxes, digits, List.range_succ]
  rw [k4]
  refine RKernel.leak_total _ (by rw [show (oneOut a (alloc h (outShape a [1]) junk).2 [1]
      (plainItem a (sumStep (gpuRound (rne 24) sqrt))) 0 0 id (gpuRound (rne 24) sqrt).add id).numel =
      (alloc h (outShape a [1]) junk).2.numel.toNat from rfl, hnum]; rfl) hcount rfl rfl rfl rfl
    (fun i => leaky (i.map fun (n : Nat) => (n : Int))) (fun _ _ _ => rfl) ?_ ?_ ?_ ?_ _
    (by rw [hcount]; rfl)
  · show leaky ((digits a.shape (axisFlags a [1]) 0 0).1.map _) = _
    rw [hidx]; simp [leaky]
  · show leaky ((digits a.shape (axisFlags a [1]) 1 0).1.map _) = _
    rw [hidx]; simp [leaky]
  · show leaky ((digits a.shape (axisFlags a [1]) 2 0).1.map _) = _
    rw [hidx]; simp [leaky]
  · intro r hr
    show leaky ((digits a.shape (axisFlags a [1]) r 1024).1.map _) = _
    rw [hidx]; simp [leaky]

/-- A heap with such an array. -/
def leakyHeap : Heap ℚ :=
  ⟨fun b => if b = 0 then Buf.ofFn 3075 fun i => if i = 0 then 33554432 else if i = 2 then 1 else 0
    else fun _ => none, 1⟩

example : DeviceInput leakyHeap (dense 0 [1025, 3]) [1] ∧ (dense 0 [1025, 3]).shape = [1025, 3] ∧
    leakyHeap.Contains (dense 0 [1025, 3]) leaky := by
  refine ⟨⟨⟨by simp, by simp [dense, denseDims]⟩, by decide, by decide, by decide, by decide⟩,
    by decide, ?_⟩
  intro idx hv
  have hv' : ValidIdx [1025, 3] idx := hv
  cases hv' with
  | @cons _ x _ _ v1 v2 =>
    cases v2 with
    | @cons _ y _ _ v3 v4 =>
      cases v4
      have e : addr (denseDims [1025, 3]).1 [x, y] = 3 * x + y := by
        simp [addr, denseDims]
        ring
      simp only [Heap.get, leakyHeap, dense, if_true, e, Buf.ofFn, leaky]
      rw [if_pos ⟨by omega, by omega⟩]
      congr 1
      simp only [List.cons.injEq, and_true]
      split_ifs <;> first | rfl | (exfalso; omega)

theorem rne24_square : rne 24 (16386 * 16386) = 268500992 := by
  have := rne_eq (p := 24) (x := 16386 * 16386) (e := 28) (n := 8390656) (by norm_num)
    (by norm_num) (by norm_num)
  rw [this]
  norm_num

theorem rne24_mean_square : rne 24 (16385 * 16385) = 268468224 := by
  have := rne_eq (p := 24) (x := 16385 * 16385) (e := 28) (n := 8389632) (by norm_num)
    (by norm_num) (by norm_num)
  rw [this]
  norm_num

theorem squareStep_eq (rnd sqrt : ℚ → ℚ) (c s : ℚ × ℚ) (v : ℚ) :
    squareStep (gpuRound rnd sqrt) c s v =
      (((kahanStep rnd (c.1, s.1) v).1, (kahanStep rnd (c.2, s.2) (rnd (v * v))).1),
        ((kahanStep rnd (c.1, s.1) v).2, (kahanStep rnd (c.2, s.2) (rnd (v * v))).2)) := rfl

theorem variance_eq (rnd sqrt : ℚ → ℚ) (m m2 : ℚ) :
    variance (gpuRound rnd sqrt) m m2 =
      if rnd (m2 - rnd (m * m)) < 0 then 0 else rnd (m2 - rnd (m * m)) := rfl

namespace RKernel

variable {σ : Type} {s0 : Mem RAddr (RCell ℚ (ℚ × ℚ))}

/-- Two threads with one element each. -/
theorem pair_total {K : RKernel ℚ (ℚ × ℚ) (ℚ × ℚ) σ} {G : Nat} (M : K.Sem s0 G) (hn : K.n = 2)
    (sqrt : ℚ → ℚ) (hz : K.zero = (0, 0)) (hc : K.comp = (0, 0))
    (hnorm : K.norm = fun x => (rne 24 (x.1 / rne 24 2), rne 24 (x.2 / rne 24 2)))
    (hm : K.merge = fun x y => (rne 24 (x.1 + y.1), rne 24 (x.2 + y.2))) (v : List Nat → ℚ)
    (hf : ∀ i c x, M.f i c x = squareStep (gpuRound (rne 24) sqrt) c x (v i))
    (h0 : v (K.idx 0 0) = 16384) (h1 : v (K.idx 0 1) = 16386) (B : Nat) (hB : B = 2) :
    M.total B 0 (M.regs B 0) = (16385, 268468224) := by
  subst hB
  have g0 : gridStride 2 2 0 = [0] := by decide
  have g1 : gridStride 2 2 1 = [1] := by decide
  have e2 : rne 24 2 = 2 := by simpa using rne24_int 2 (by norm_num)
  have ea : rne 24 16384 = 16384 := by simpa using rne24_int 16384 (by norm_num)
  have eb : rne 24 16386 = 16386 := by simpa using rne24_int 16386 (by norm_num)
  have ec : rne 24 8192 = 8192 := by simpa using rne24_int 8192 (by norm_num)
  have ed : rne 24 8193 = 8193 := by simpa using rne24_int 8193 (by norm_num)
  have ee : rne 24 16385 = 16385 := by simpa using rne24_int 16385 (by norm_num)
  have x1 : rne 24 268435456 = 268435456 := by
    have := rne24_exact 1 28 (by norm_num)
    norm_num at this
    exact this
  have x2 : rne 24 268500992 = 268500992 := by
    have := rne24_exact 8390656 5 (by norm_num)
    norm_num at this
    exact this
  have x3 : rne 24 134217728 = 134217728 := by
    have := rne24_exact 1 27 (by norm_num)
    norm_num at this
    exact this
  have x4 : rne 24 134250496 = 134250496 := by
    have := rne24_exact 8390656 4 (by norm_num)
    norm_num at this
    exact this
  have x5 : rne 24 268468224 = 268468224 := by
    have := rne24_exact 8389632 5 (by norm_num)
    norm_num at this
    exact this
  have sq1 : rne 24 (16384 * 16384) = 268435456 := by norm_num [x1]
  have sq2 := rne24_square
  have z := rne24_zero
  have hreg : ∀ t, M.regs 2 0 t = (0, 0) := by
    intro t
    simp [Sem.regs, Sem.regsFrom, hc]
  have p0 : (M.part 2 0 0 (0, 0)).2 = (8192, 134217728) := by
    simp [Sem.part, hn, g0, Sem.accum, hf, h0, hz, hnorm, squareStep_eq, kahanStep,
      sq1, ea, x1, e2, z]
    norm_num [ec, x3]
  have p1 : (M.part 2 0 1 (0, 0)).2 = (8193, 134250496) := by
    simp [Sem.part, hn, g1, Sem.accum, hf, h1, hz, hnorm, squareStep_eq, kahanStep,
      sq2, eb, x2, e2, z]
    norm_num [ed, x4]
  have hh : halvings 2 (2 / 2) = [1] := by decide
  simp only [Sem.total, root, hh, List.foldl_cons, List.foldl_nil, level, Nat.lt_one_iff, if_true,
    hm, zero_add, hreg]
  rw [p0, p1]
  norm_num [ee, x5]

end RKernel

/-- The two values 16384 and 16386. -/
def twins (j : List Int) : ℚ := if j = [0] then 16384 else 16386

theorem twins_var : popVar twins [[0], [1]] = 1 := by norm_num [popVar, twins]

theorem twins_zero (sqrt : ℚ → ℚ) :
    variance (gpuRound (rne 24) sqrt) 16385 268468224 = 0 := by
  rw [variance_eq, rne24_mean_square, sub_self, rne24_zero, if_neg (lt_irrefl 0)]

/-- **C88 limit: the variance cancels.** Of the two numbers 16384 and 16386 the device returns the
variance 0 in IEEE single precision, under every schedule; their variance is 1. So no bound relative
to the variance itself holds, only one relative to the mean square. -/
theorem C88_gpu_variance_cancels (sqrt : ℚ → ℚ) (h : Heap ℚ) (hm : Heap UInt8) (a : Arr)
    (junk : Int → ℚ) (sh : Nat → Nat → ℚ × ℚ) (hin : DeviceInput h a [0]) (hs : a.shape = [2])
    (hX : h.Contains a twins) :
    popVar twins [[0], [1]] = 1 ∧
    ∃ R, DeviceReturns (fun out => devKernel (gpuRound (rne 24) sqrt) false a out [0]) h hm a [0]
        junk sh R ∧ R [0] = 0 := by
  refine ⟨twins_var, ?_⟩
  have hd : a.dims.length = 1 := by rw [← Stat.shape_length, hs]; rfl
  have hrem : remaining [0] a.shape = [] := by rw [hs]; decide
  have hcount : (count a [0]).toNat = 2 := by
    rw [count_redSize hin.axes hin.pos, hs]
    simp [axisFlags, hd, allAxes, redSize, List.range_succ]
  obtain ⟨R, r1, r2, r3, r4⟩ := one_returns (hm := hm) (sh := sh) (junk := junk) hin.axes hin.pos
    hin.rank hin.owned (plainItem a (squareStep (gpuRound (rne 24) sqrt))) (0, 0) (0, 0)
    (fun x => ((gpuRound (rne 24) sqrt).div x.1 ((gpuRound (rne 24) sqrt).ofNat (count a [0]).toNat),
      (gpuRound (rne 24) sqrt).div x.2 ((gpuRound (rne 24) sqrt).ofNat (count a [0]).toNat)))
    (fun x y => ((gpuRound (rne 24) sqrt).add x.1 y.1, (gpuRound (rne 24) sqrt).add x.2 y.2))
    (fun x => let v := variance (gpuRound (rne 24) sqrt) x.1 x.2;
      if false then (gpuRound (rne 24) sqrt).sqrt v else v)
    (fun B G => plainItems (squareStep (gpuRound (rne 24) sqrt)) rfl rfl hin.noOffset
      (alloc_contains hin hX))
  refine ⟨R, ⟨r1, r2, r3⟩, ?_⟩
  obtain ⟨k, k1, k2, k3, k4, -⟩ := r4 [0] (by
    rw [hrem]; exact .cons ⟨by decide, by decide⟩ .nil)
  have hp := out_pos hin.axes hin.pos
  obtain ⟨p1, -⟩ := alloc_props h (outShape a [0]) junk (fun s hs => (hp s hs).le)
  have hnum : (alloc h (outShape a [0]) junk).2.numel = 1 := by
    unfold Arr.numel
    rw [p1, outShape_eq hin.axes, hrem]
    decide
  have hk : k = 0 := by
    rw [hnum] at k3
    omega
  subst hk
  have hidx : ∀ k r, (digits a.shape (axisFlags a [0]) r k).1 = [r % 2] := by
    intro k r
    rw [hs]
    simp [axisFlags, hd, allAxes, digits, List.range_succ]
  rw [k4, RKernel.pair_total _ hcount sqrt rfl rfl (by
      funext x
      show (rne 24 (x.1 / rne 24 ((count a [0]).toNat : ℚ)),
        rne 24 (x.2 / rne 24 ((count a [0]).toNat : ℚ))) = _
      rw [hcount]
      norm_num) rfl
    (fun i => twins (i.map fun (n : Nat) => (n : Int))) (fun _ _ _ => rfl) ?_ ?_ _
    (by rw [hcount]; rfl)]
  · exact twins_zero sqrt
  · show twins ((digits a.shape (axisFlags a [0]) 0 0).1.map _) = _
    rw [hidx]; simp [twins]
  · show twins ((digits a.shape (axisFlags a [0]) 1 0).1.map _) = _
    rw [hidx]; simp [twins]

/-- A heap with such an array. -/
def twinHeap : Heap ℚ :=
  ⟨fun b => if b = 0 then Buf.ofFn 2 fun i => if i = 0 then 16384 else 16386
    else fun _ => none, 1⟩

example : DeviceInput twinHeap (dense 0 [2]) [0] ∧ (dense 0 [2]).shape = [2] ∧
    twinHeap.Contains (dense 0 [2]) twins := by
  refine ⟨⟨⟨by simp, by simp [dense, denseDims]⟩, by decide, by decide, by decide, by decide⟩,
    by decide, ?_⟩
  intro idx hv
  have hv' : ValidIdx [2] idx := hv
  cases hv' with
  | @cons _ x _ _ v1 v2 =>
    cases v2
    have e : addr (denseDims [2]).1 [x] = x := by
      simp [addr, denseDims]
    simp only [Heap.get, twinHeap, dense, if_true, e, Buf.ofFn, twins]
    rw [if_pos ⟨by omega, by omega⟩]
    simp

/-! ## The bounds of `ReduceFloat` in IEEE arithmetic -/

/-- `float`: an error of at most 24 · 2^-24 of the sum of magnitudes. -/
example (sqrt : ℚ → ℚ) (hm : Heap UInt8) (junk : Int → ℚ) (sh : Nat → Nat → ℚ) :
    ∃ R, DeviceReturns (fun out => sumKernel (gpuRound (rne 24) sqrt) (dense 0 [2, 3]) out [0])
        exampleHeap hm (dense 0 [2, 3]) [0] junk sh R ∧ |R [1] - 5| ≤ 24 * 2 ^ (-24 : ℤ) * 5 := by
  obtain ⟨R, r1, r2⟩ := C88_gpu_sum_partial (hm := hm) (junk := junk) sqrt float_relErr (by positivity)
    (by norm_num) sh example_input example_contains (by decide)
  refine ⟨R, r1, ?_⟩
  have := r2 [1] (.cons ⟨by decide, by decide⟩ .nil) _ example_enumerates (by norm_num)
  have e1 : (addr (denseDims [2, 3]).1 [0, 1] : ℚ) = 1 := by norm_num [addr, denseDims]
  have e2 : (addr (denseDims [2, 3]).1 [1, 1] : ℚ) = 4 := by norm_num [addr, denseDims]
  simp only [List.map_cons, List.map_nil, List.sum_cons, List.sum_nil, e1, e2] at this
  norm_num at this ⊢
  exact this

end Bliss.Gpu
