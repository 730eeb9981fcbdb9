import Verif.Stat.Into
import Verif.Float.Rounding

/-!
# Standardized moments (C114)

`standardized_moment(a, degree, axes)`: the mean of every slab first, in an array of its own, then a
second pass over the deviations from it.
-/

namespace Bliss.Stat

open Bliss.Nd

variable {V D : Type}

/-! ## Model -/

/-- The arithmetic that only the standardized moment uses. -/
structure MomentOps (V D : Type) where
  /-- `float` subtraction -/
  subV : V → V → V
  /-- `std::pow(float, int)`, computed in `double` -/
  powInt : D → Int → D
  /-- `std::pow(double, degree / 2.0f)` -/
  powHalf : D → Int → D
  /-- `eps` -/
  eps : D

/-- `scale`: `bland/bland/ops/cpu/statistical_cpu.cpp` line 803. -/
def momentScale (o : StatOps V D) (n : Int) : D := o.div (o.ofInt 1) (o.ofInt (n - 1))

/-- One element: `bland/bland/ops/cpu/statistical_cpu.cpp` lines 828–830. -/
def momentStep (o : StatOps V D) (m : MomentOps V D) (degree n : Int) (mu : V) (acc : D × D) (v : V) :
    D × D :=
  let d := m.subV v mu
  (o.add acc.1 (o.mul (m.powInt (o.toD d) degree) (momentScale o n)),
   o.add acc.2 (o.mul (o.mul (o.toD d) (o.toD d)) (momentScale o n)))

/-- The result of a slab: `bland/bland/ops/cpu/statistical_cpu.cpp` line 850. -/
def momentFinish (o : StatOps V D) (m : MomentOps V D) (degree : Int) (acc : D × D) : V :=
  o.toV (o.div acc.1 (o.add m.eps (m.powHalf acc.2 degree)))

/-- One iteration of the outer loop: `bland/bland/ops/cpu/statistical_cpu.cpp` lines 806–885.  The
state is the heap and the multi-indices of the output, of the means and of the input. -/
def momentBody (o : StatOps V D) (m : MomentOps V D) (degree : Int) (a means out : Arr)
    (axes : List Nat) (n : Int) (st : Heap V × List Int × List Int × List Int) :
    Outcome (Heap V × List Int × List Int × List Int) := do
  let ml ← linIdx means.dims st.2.2.1
  let mu ← st.1.load means.blk ml
  let r ← innerLoop a axes (plainVisit a (momentStep o m degree n mu) st.1) n.toNat (o.zero, o.zero)
    st.2.2.2
  let ol ← linIdx out.dims st.2.1
  let h' ← st.1.store out.blk ol (momentFinish o m degree r.1)
  pure (h', (incAxes out.shape (List.range out.dims.length) st.2.1).1,
    (incAxes means.shape (List.range means.dims.length) st.2.2.1).1,
    (incAxes a.shape (keptAxes a.dims.length axes) st.2.2.2).1)

/-- `standardized_moment` into a given array.  `bland/bland/ops/cpu/statistical_cpu.cpp` lines
756–888: the means go to a new array of the shape of `out`.  As in `reduceInto`, an axis that does
not exist indexes the shape out of range (already in the computation of the means). -/
def momentInto (o : StatOps V D) (m : MomentOps V D) (degree : Int) (a out : Arr) (axes : List Int)
    (junk : Int → V) (h : Heap V) : Outcome (Heap V) := do
  let r := alloc h out.shape junk
  let h1 ← meanInto o a r.2 axes r.1
  let ax := (allAxes a axes).map Int.toNat
  let st ← forLoop out.numel.toNat
    (fun _ st => momentBody o m degree a r.2 out ax (count a axes) st)
    (h1, out.dims.map (fun _ => 0), r.2.dims.map (fun _ => 0), a.dims.map (fun _ => 0))
  pure st.1

/-- `standardized_moment` into a new array.  `bland/bland/ops/statistical.cpp` lines 347–363. -/
def standardizedMoment (o : StatOps V D) (m : MomentOps V D) (degree : Int) (a : Arr)
    (axes : List Int) (junk1 junk2 : Int → V) (h : Heap V) : Outcome (Heap V × Arr) := do
  let r := alloc h (outShape a axes) junk1
  let h' ← momentInto o m degree a r.2 axes junk2 r.1
  pure (h', r.2)

/-! ## The loops -/

/-- The mean that `mean` computes for a slab. -/
def slabMean (o : StatOps V D) (X : List Int → V) (l : List (List Int)) : V :=
  o.toV (o.div (l.foldl (fun acc j => o.add acc (o.toD (X j))) o.zero) (o.ofInt l.length))

/-- The moment of a slab. -/
def slabMoment (o : StatOps V D) (m : MomentOps V D) (degree : Int) (X : List Int → V)
    (l : List (List Int)) : V :=
  momentFinish o m degree
    (l.foldl (fun acc j => momentStep o m degree l.length (slabMean o X l) acc (X j)) (o.zero, o.zero))

theorem zeros_unravel (out : Arr) :
    out.dims.map (fun _ => (0 : Int)) = unravel (ldOut out) 0 := by
  rw [unravel_zero, zeros_eq, List.map_const', List.map_const']
  simp [ldOut, ldOf]

/-- **C114 (which elements)**. `standardized_moment` into an array or slice that has the shape of the
result and no element of the input: each element is computed from exactly the input elements with
its index, each once, in two passes; no other existing element changes, and nothing outside the
arrays is read. -/
theorem C114_into_partial (o : StatOps V D) (m : MomentOps V D) (degree : Int) (a out : Arr)
    (axes : List Int) (h : Heap V) (X : List Int → V) (hax : GoodAxes a axes) (hwf : a.WF)
    (hX : h.Contains a X) (hb : a.blk < h.next) (howf : out.WF) (hdis : out.Distinct)
    (hmap : h.Mapped out) (hob : out.blk < h.next) (hfit : Fits a out axes) (junk : Int → V) :
    ∃ h', momentInto o m degree a out axes junk h = .ok h' ∧
      h'.Contains out (fun i => slabMoment o m degree X (order a.shape axes i)) ∧
      (∀ b i, b < h.next → (b = out.blk → ∀ idx, ValidIdx out.shape idx → addr out.dims idx ≠ i) →
        h'.mem b i = h.mem b i) ∧
      ∀ i, ValidIdx out.shape i → Enumerates a.shape axes i (order a.shape axes i) := by
  obtain ⟨p1, p2, p3, p4, p5, p6, p7⟩ := alloc_props h out.shape junk (shape_nonneg howf)
  unfold momentInto
  generalize alloc h out.shape junk = r at *
  obtain ⟨h0, means⟩ := r
  simp only at *
  have hX0 : h0.Contains a X := Contains.frame hX hb p7
  have hfit0 : Fits a means axes := ⟨p1.trans hfit.shape, fun e => absurd e (by omega)⟩
  obtain ⟨h1, e1, e2, e3⟩ := reduceInto_spec hax hwf p2 p3 hfit0
    (fun acc v => o.add acc (o.toD v))
    (fun acc => .ok (o.toV (o.div acc (o.ofInt (count a axes))))) o.zero h0 X hX0 p4
    (fun i => slabMean o X (order a.shape axes i))
    (fun i _ => by rw [count_eq axes hwf i]; rfl)
  have hmean : meanInto o a means axes h0 = .ok h1 := e1
  rw [hmean]
  simp only [Outcome.bind_ok]
  have hmem : ∀ b, b < h.next → h1.mem b = h.mem b := by
    intro b hb
    rw [← p7 b hb]
    funext i
    exact e3.2 b i (fun e => by omega)
  have hsh := hfit.shape
  have hcells := (out_start hax hsh).1
  have hun := unravel_congr (ld := ldOut means) (ld' := ldOut out)
    (by rw [ldOut_sizes, ldOut_sizes, p1])
  have hnum : out.numel.toNat = cells (ldOut out) := by
    have := cells_eq (ldOut out) (by
      intro d hd
      have : d.size ∈ out.shape := by rw [← ldOut_sizes]; exact List.mem_map_of_mem hd
      exact shape_nonneg howf _ this)
    rw [ldOut_sizes] at this
    unfold Arr.numel
    omega
  have hcount : (count a axes).toNat = cells (ldOf a.shape (redAxes a.dims.length axes)) := by
    rw [← count_cells axes hwf, count, redAxes_eq]
  rw [hnum, redAxes_eq]
  have hvo : ∀ k < cells (ldOut out), ValidIdx out.shape (unravel (ldOut out) k) :=
    fun k hk => valid_unravel (ldOut_sizes out) hk
  obtain ⟨st, f1, w, -⟩ := forLoop_inv (n := cells (ldOut out))
    (s := (h1, out.dims.map (fun _ => (0 : Int)), means.dims.map (fun _ => (0 : Int)),
      a.dims.map (fun _ => (0 : Int))))
    (body := fun _ st => momentBody o m degree a means out (redAxes a.dims.length axes)
      (count a axes) st)
    (fun n st => Wrote h1 st.1 out.blk n (fun k => addr out.dims (unravel (ldOut out) k))
        (fun k => slabMoment o m degree X (order a.shape axes (unravel (ldOut out) k))) ∧
      (n < cells (ldOut out) → st.2.1 = unravel (ldOut out) n ∧
        st.2.2.1 = unravel (ldOut out) n ∧
        st.2.2.2 = startIdx a (redAxes a.dims.length axes) n))
    ⟨Wrote.refl _ _ _ _, fun _ => ⟨zeros_unravel out, by rw [← hun.2]; exact zeros_unravel means, by
        rw [startIdx, unravel_zero, place_zeros]
        · intro d _; exact getD_zeros _ _
        · intro d hd; rw [mem_keptAxes] at hd; simpa using hd.1⟩⟩
    (by
      intro k st hk ⟨w, hst⟩
      obtain ⟨s1, s2, s3⟩ := hst hk
      obtain ⟨hh, oi, mi, ii⟩ := st
      simp only at s1 s2 s3 w
      subst s1; subst s2; subst s3
      have hvk := hvo k hk
      have hvm : ValidIdx means.shape (unravel (ldOut out) k) := by rw [p1]; exact hvk
      have hmu : hh.mem means.blk (addr means.dims (unravel (ldOut out) k)) =
          some (slabMean o X (order a.shape axes (unravel (ldOut out) k))) := by
        rw [w.same means.blk _ (fun e => by omega)]
        exact e3.1 _ hvm
      have hv : ∀ j, ValidIdx a.shape j → ∀ acc,
          plainVisit a (momentStep o m degree (count a axes)
            (slabMean o X (order a.shape axes (unravel (ldOut out) k)))) hh acc (addr a.dims j) =
          .ok (momentStep o m degree (count a axes)
            (slabMean o X (order a.shape axes (unravel (ldOut out) k))) acc (X j)) := by
        intro j hj acc
        have e := hX j hj
        simp only [Heap.get] at e
        rw [← hmem _ hb, ← w.same a.blk (addr a.dims j) (fun e' n hn =>
          hfit.apart e'.symm _ _ (hvo n (by omega)) hj)] at e
        simp only [plainVisit, Heap.load, Buf.load_some e, Outcome.bind_ok, Outcome.pure_eq]
      have hs := startIdx_start a (redAxes a.dims.length axes) (by rw [← hcells]; exact hk)
      obtain ⟨i', hi⟩ := innerLoop_eq a (redAxes a.dims.length axes) _ (o.zero, o.zero) _ hs
        (redAxes_nodup hax.1 hax.2)
        (by intro d hd; rw [shape_length]; exact redAxes_mem hax.2 d hd) _ hv
      rw [order_start hax hsh hk] at hi
      obtain ⟨h'', g1, g2⟩ := w.store (by
        have := hmap _ hvk
        simp only [Heap.get] at this
        rw [hmem _ hob]; exact this)
        (fun j hj he => by
          have := hdis _ _ (hvo j (by omega)) hvk he
          have := unravel_inj (by omega) hk this
          omega)
      refine ⟨(h'', (incAxes out.shape (List.range out.dims.length) (unravel (ldOut out) k)).1,
        (incAxes means.shape (List.range means.dims.length) (unravel (ldOut out) k)).1,
        (incAxes a.shape (keptAxes a.dims.length (redAxes a.dims.length axes))
          (startIdx a (redAxes a.dims.length axes) k)).1), ?_, g2, fun hlt => ⟨out_step out hk hlt, ?_, ?_⟩⟩
      · unfold momentBody
        simp only
        rw [linIdx_addr (show ValidIdx (means.dims.map Dim.size) _ from hvm)]
        simp only [Outcome.bind_ok, Heap.load, Buf.load_some hmu]
        rw [hcount, hi]
        simp only [Outcome.bind_ok]
        rw [linIdx_addr (show ValidIdx (out.dims.map Dim.size) _ from hvk)]
        simp only [Outcome.bind_ok]
        rw [count_eq axes hwf (unravel (ldOut out) k)]
        rw [show momentFinish o m degree ((order a.shape axes (unravel (ldOut out) k)).foldl _ _) =
          slabMoment o m degree X (order a.shape axes (unravel (ldOut out) k)) from rfl, g1]
        rfl
      · rw [← hun.2, ← hun.2]
        exact out_step means (by rw [hun.1]; exact hk) (by rw [hun.1]; exact hlt)
      · simp only [startIdx]
        exact incAxes_step _ _ _ (keptAxes_nodup _ _)
          (by intro d hd; rw [mem_keptAxes] at hd; simpa using hd.1)
          (by omega) (by omega))
  have hu := Wrote.updated (ldOut_sizes out)
    (A := fun i => slabMoment o m degree X (order a.shape axes i)) w
  refine ⟨st.1, by rw [f1]; rfl, hu.1, fun b i hbn hne => ?_, fun i hi => ?_⟩
  · rw [hu.2 b i hne, hmem b hbn]
  · exact order_enumerates hax (by rw [← hsh]; exact hi)

/-- **C114 (a new array)**: the same for `standardized_moment` without an output argument. -/
theorem C114_new (o : StatOps V D) (m : MomentOps V D) (degree : Int) (a : Arr) (axes : List Int)
    (h : Heap V) (X : List Int → V) (hax : GoodAxes a axes) (hwf : a.WF) (hX : h.Contains a X)
    (hb : a.blk < h.next) (junk1 junk2 : Int → V) :
    (∃ h' r, standardizedMoment o m degree a axes junk1 junk2 h = .ok (h', r) ∧
      r.shape = orUnit 1 (remaining axes a.shape) ∧ r.blk = h.next ∧
      h'.Contains r (fun i => slabMoment o m degree X (order a.shape axes i)) ∧ h.Frame h') ∧
    ∀ i, ValidIdx (orUnit 1 (remaining axes a.shape)) i →
      Enumerates a.shape axes i (order a.shape axes i) := by
  refine ⟨?_, fun i hi => order_enumerates hax hi⟩
  obtain ⟨p1, p2, p3, p4, p5, p6, p7⟩ := alloc_props h (outShape a axes) junk1
    (by rw [outShape_eq hax]; exact valid_nonneg hax hwf)
  unfold standardizedMoment
  generalize alloc h (outShape a axes) junk1 = r at *
  obtain ⟨h0, out⟩ := r
  simp only at *
  obtain ⟨h', e1, e2, e3, -⟩ := C114_into_partial o m degree a out axes h0 X hax hwf
    (Contains.frame hX hb p7) (by omega) p2 p3 p4 (by omega)
    ⟨p1.trans (outShape_eq hax), fun e => absurd e (by omega)⟩ junk2
  refine ⟨h', out, by rw [e1]; rfl, p1.trans (outShape_eq hax), p5, e2, fun b hbn => ?_⟩
  funext i
  rw [e3 b i (by omega) (fun e => by omega), p7 b hbn]

/-! ## Exact arithmetic -/

/-- Exact arithmetic on real numbers. -/
noncomputable def realOps : StatOps ℝ ℝ where
  toD := id
  toV := id
  zero := 0
  add := (· + ·)
  sub := (· - ·)
  mul := (· * ·)
  div := (· / ·)
  ofInt := fun n => n
  sqrt := Real.sqrt
  clip := fun x => Max.max 0 x
  zeroV := 0
  addV := (· + ·)
  gtV := fun x y => Real.decidableLT y x |>.decide
  lowest := -(2 ^ 128)

/-- `eps`, the `float` nearest to 1e-8.  `bland/bland/ops/cpu/statistical_cpu.cpp` line 23. -/
noncomputable def floatEps : ℝ := 11258999 / 2 ^ 50

/-- It is the literal `1e-8` rounded to 24 bits. -/
theorem C114_eps : floatEps = ((Bliss.Float.rne 24 (1 / 10 ^ 8) : ℚ) : ℝ) := by
  have h : Bliss.Float.rne 24 (1 / 10 ^ 8) = 11258999 / 2 ^ 50 := by decide +kernel
  rw [h, floatEps]
  norm_num

/-- Exact powers of real numbers. -/
noncomputable def realMoment : MomentOps ℝ ℝ where
  subV := (· - ·)
  powInt := fun x k => x ^ k
  powHalf := fun x k => x ^ ((k : ℝ) / 2)
  eps := floatEps

/-- Arithmetic mean of the listed elements. -/
noncomputable def avg (X : List Int → ℝ) (l : List (List Int)) : ℝ := (l.map X).sum / l.length

/-- Sum of the `k`-th powers of the deviations from the mean. -/
noncomputable def devSum (X : List Int → ℝ) (k : Nat) (l : List (List Int)) : ℝ :=
  (l.map fun j => (X j - avg X l) ^ k).sum

/-- The standardized moment of degree `k` (skewness for 3, kurtosis for 4) of the listed elements:
`k`-th central moment over the `k`-th power of the standard deviation. -/
noncomputable def stdMoment (X : List Int → ℝ) (k : Nat) (l : List (List Int)) : ℝ :=
  devSum X k l / l.length / (devSum X 2 l / l.length) ^ ((k : ℝ) / 2)

theorem foldl_add_real {α : Type} (f : α → ℝ) (l : List α) (x : ℝ) :
    l.foldl (fun acc j => acc + f j) x = x + (l.map f).sum := by
  induction l generalizing x with
  | nil => simp
  | cons a l ih => simp only [List.foldl_cons, ih, List.map_cons, List.sum_cons]; ring

theorem slabMean_real (X : List Int → ℝ) (l : List (List Int)) :
    slabMean realOps X l = avg X l := by
  simp only [slabMean, realOps, avg, id, foldl_add_real]
  simp

theorem moment_foldl (X : List Int → ℝ) (k : Nat) (n : Int) (mu : ℝ) (l : List (List Int))
    (p : ℝ × ℝ) :
    l.foldl (fun acc j => momentStep realOps realMoment k n mu acc (X j)) p =
      (p.1 + (l.map fun j => (X j - mu) ^ k).sum / ((n : ℝ) - 1),
       p.2 + (l.map fun j => (X j - mu) ^ 2).sum / ((n : ℝ) - 1)) := by
  induction l generalizing p with
  | nil => simp
  | cons a l ih =>
    simp only [List.foldl_cons, ih, List.map_cons, List.sum_cons, Prod.mk.injEq]
    simp only [momentStep, momentScale, realOps, realMoment, id, zpow_natCast]
    push_cast
    constructor <;> ring

theorem slabMoment_real (X : List Int → ℝ) (k : Nat) (l : List (List Int)) :
    slabMoment realOps realMoment k X l =
      devSum X k l / ((l.length : ℝ) - 1) /
        (floatEps + (devSum X 2 l / ((l.length : ℝ) - 1)) ^ ((k : ℝ) / 2)) := by
  simp only [slabMoment, slabMean_real, moment_foldl, momentFinish]
  simp only [realOps, realMoment, id, zero_add, devSum]
  push_cast
  rfl

theorem avg_perm {X : List Int → ℝ} {l m : List (List Int)} (h : l.Perm m) : avg X l = avg X m := by
  unfold avg
  rw [(h.map X).sum_eq, h.length_eq]

theorem devSum_perm {X : List Int → ℝ} {k : Nat} {l m : List (List Int)} (h : l.Perm m) :
    devSum X k l = devSum X k m := by
  unfold devSum
  rw [avg_perm h, (h.map _).sum_eq]

theorem devSum_two_nonneg (X : List Int → ℝ) (l : List (List Int)) : 0 ≤ devSum X 2 l := by
  unfold devSum
  refine List.sum_nonneg fun x hx => ?_
  obtain ⟨j, -, rfl⟩ := List.mem_map.1 hx
  positivity

theorem dev_foldl_real (X : List Int → ℝ) (n : Int) (l : List (List Int)) (p : ℝ × ℝ) :
    l.foldl (fun acc j => devStep realOps n acc (X j)) p =
      (p.1 + (l.map X).sum / n, p.2 + (l.map fun j => X j ^ 2).sum / n) := by
  induction l generalizing p with
  | nil => simp
  | cons a l ih =>
    simp only [List.foldl_cons, ih, List.map_cons, List.sum_cons, Prod.mk.injEq]
    simp only [devStep, realOps, id, Int.cast_one]
    constructor <;> ring

theorem devSum_two (X : List Int → ℝ) (l : List (List Int)) (hl : l ≠ []) :
    devSum X 2 l / l.length =
      (l.map fun j => X j ^ 2).sum / l.length - ((l.map X).sum / l.length) ^ 2 := by
  have hlen : (0 : ℝ) < l.length := by
    have := List.length_pos_of_ne_nil hl
    exact_mod_cast this
  have h : ∀ (m : List (List Int)) (c : ℝ), (m.map fun j => (X j - c) ^ 2).sum =
      (m.map fun j => X j ^ 2).sum - 2 * c * (m.map X).sum + m.length * c ^ 2 := by
    intro m c
    induction m with
    | nil => simp
    | cons a m ih =>
      simp only [List.map_cons, List.sum_cons, ih, List.length_cons]
      push_cast
      ring
  rw [devSum, h, avg]
  field_simp
  ring

/-- **C113 (exact variance)**. In exact arithmetic `var` into a new array gives the population
variance of the elements with that index. -/
theorem C113_exact_var (a : Arr) (axes : List Int) (h : Heap ℝ) (X : List Int → ℝ)
    (hax : GoodAxes a axes) (hwf : a.WF) (hX : h.Contains a X) (hb : a.blk < h.next)
    (junk1 junk2 : Int → ℝ) :
    ∃ (R : List Int → ℝ) (h' : Heap ℝ) (r : Arr),
      var realOps (fun x => x * x) a axes junk1 junk2 h = .ok (h', r) ∧
      r.shape = orUnit 1 (remaining axes a.shape) ∧ h'.Contains r R ∧ h.Frame h' ∧
      ∀ i, ValidIdx r.shape i → ∀ l, Enumerates a.shape axes i l → l ≠ [] →
        R i = devSum X 2 l / l.length := by
  obtain ⟨hr, hen⟩ := C53_stddev realOps a axes junk1 h X hax hwf hX hb
  obtain ⟨h1, s, e1, e2, e3, e4, e5, e6⟩ := hr
  have hswf : s.WF := by
    intro d hd
    exact valid_nonneg hax hwf _ (by rw [← e2]; exact List.mem_map_of_mem hd)
  obtain ⟨h2, r, f1, f2, f3, f4, f5⟩ :=
    C50_unary_new (fun x : ℝ => x * x) h1 s junk2 _ hswf e5 (by omega)
  refine ⟨_, h2, r, ?_, f2.trans e2, f4, ?_, ?_⟩
  · unfold var
    rw [e1]
    exact f1
  · intro b hb
    rw [f5 b (by omega), e6 b hb]
  · intro i hi l hl hne
    rw [f2.trans e2] at hi
    have hp := enumerates_perm (hen i hi) hl
    have hne' : order a.shape axes i ≠ [] := by
      intro e; rw [e] at hp; exact hne hp.nil_eq.symm
    rw [← devSum_perm hp, ← hp.length_eq]
    have hd := devSum_two X _ hne'
    have hnn : 0 ≤ devSum X 2 (order a.shape axes i) / (order a.shape axes i).length :=
      div_nonneg (devSum_two_nonneg X _) (Nat.cast_nonneg _)
    simp only [dev_foldl_real, devFinish]
    simp only [realOps, id, zero_add, Int.cast_natCast]
    rw [← sq ((List.map X (order a.shape axes i)).sum / _), ← hd, max_eq_right hnn,
      Real.mul_self_sqrt hnn]

/-- **C114 (value)**, `_partial`: in exact arithmetic, for slabs of at least two elements that are
not all equal, the result is the standardized moment of the slab times
`(n/(n-1))^(1-k/2) / (1 + eps/s^k)`, `s` being the sample standard deviation.
Full property: the result is the standardized moment.  The first factor is 1 only for degree 2, the
second never (`C114_second_degree`, `C114_not_kurtosis`); a slab of one element has no result
(`C114_one_element`). -/
theorem C114_value_partial (k : Nat) (a : Arr) (axes : List Int) (h : Heap ℝ) (X : List Int → ℝ)
    (hax : GoodAxes a axes) (hwf : a.WF) (hX : h.Contains a X) (hb : a.blk < h.next)
    (junk1 junk2 : Int → ℝ) :
    ∃ (R : List Int → ℝ) (h' : Heap ℝ) (r : Arr),
      standardizedMoment realOps realMoment k a axes junk1 junk2 h = .ok (h', r) ∧
      r.shape = orUnit 1 (remaining axes a.shape) ∧ h'.Contains r R ∧ h.Frame h' ∧
      ∀ i, ValidIdx r.shape i → ∀ l, Enumerates a.shape axes i l → 2 ≤ l.length →
        0 < devSum X 2 l →
        R i = stdMoment X k l *
          (((l.length : ℝ) / (l.length - 1)) ^ (1 - (k : ℝ) / 2) /
            (1 + floatEps / (devSum X 2 l / (l.length - 1)) ^ ((k : ℝ) / 2))) := by
  obtain ⟨⟨h', r, e1, e2, -, e4, e5⟩, e6⟩ :=
    C114_new realOps realMoment k a axes h X hax hwf hX hb junk1 junk2
  refine ⟨_, h', r, e1, e2, e4, e5, fun i hi l hl hlen hpos => ?_⟩
  have hp := enumerates_perm (e6 i (by rw [← e2]; exact hi)) hl
  simp only [slabMoment_real]
  rw [devSum_perm hp, devSum_perm (k := 2) hp, hp.length_eq]
  have hn : (0 : ℝ) < l.length := by positivity
  have hn1 : (0 : ℝ) < (l.length : ℝ) - 1 := by
    have : (2 : ℝ) ≤ l.length := by exact_mod_cast hlen
    linarith
  unfold stdMoment
  generalize hM : devSum X k l = M
  generalize hS : devSum X 2 l = S at hpos ⊢
  generalize (l.length : ℝ) = n at hn hn1 ⊢
  generalize hk : (k : ℝ) / 2 = κ
  have hnn1 : 0 < n / (n - 1) := by positivity
  have h1 : (S / (n - 1)) ^ κ = (S / n) ^ κ * (n / (n - 1)) ^ κ := by
    rw [← Real.mul_rpow (by positivity) (by positivity)]
    congr 1
    field_simp
  rw [Real.rpow_sub hnn1, Real.rpow_one, h1]
  have hA : 0 < (S / n) ^ κ := Real.rpow_pos_of_pos (by positivity) _
  have hB : 0 < (n / (n - 1)) ^ κ := Real.rpow_pos_of_pos hnn1 _
  have he : 0 < floatEps := by unfold floatEps; positivity
  generalize (S / n) ^ κ = A at *
  generalize (n / (n - 1)) ^ κ = B at *
  field_simp
  ring

theorem avg_affine (X : List Int → ℝ) (c d : ℝ) (l : List (List Int)) (hl : l ≠ []) :
    avg (fun j => c * X j + d) l = c * avg X l + d := by
  have hlen : (0 : ℝ) < l.length := by
    have := List.length_pos_of_ne_nil hl
    exact_mod_cast this
  have hs : ∀ m : List (List Int), (m.map fun j => c * X j + d).sum =
      c * (m.map X).sum + m.length * d := by
    intro m
    induction m with
    | nil => simp
    | cons a m ih =>
      simp only [List.map_cons, List.sum_cons, ih, List.length_cons]
      push_cast
      ring
  unfold avg
  rw [hs]
  field_simp

theorem devSum_affine (X : List Int → ℝ) (c d : ℝ) (k : Nat) (l : List (List Int)) (hl : l ≠ []) :
    devSum (fun j => c * X j + d) k l = c ^ k * devSum X k l := by
  unfold devSum
  rw [avg_affine X c d l hl]
  generalize avg X l = m
  clear hl
  induction l with
  | nil => simp
  | cons a l ih =>
    simp only [List.map_cons, List.sum_cons, ih, mul_add, ← mul_pow]
    congr 2
    ring

/-- The result `standardized_moment` stores for a slab, in exact arithmetic, as a function of the
elements of the slab: what `C114_value_partial` describes. -/
noncomputable def momentOf (X : List Int → ℝ) (k : Nat) (l : List (List Int)) : ℝ :=
  devSum X k l / ((l.length : ℝ) - 1) /
    (floatEps + (devSum X 2 l / ((l.length : ℝ) - 1)) ^ ((k : ℝ) / 2))

/-- **C114 (result of every slab)**: `momentOf` is what is stored, whatever the elements. -/
theorem C114_result (k : Nat) (a : Arr) (axes : List Int) (h : Heap ℝ) (X : List Int → ℝ)
    (hax : GoodAxes a axes) (hwf : a.WF) (hX : h.Contains a X) (hb : a.blk < h.next)
    (junk1 junk2 : Int → ℝ) :
    ∃ (R : List Int → ℝ) (h' : Heap ℝ) (r : Arr),
      standardizedMoment realOps realMoment k a axes junk1 junk2 h = .ok (h', r) ∧
      r.shape = orUnit 1 (remaining axes a.shape) ∧ h'.Contains r R ∧ h.Frame h' ∧
      ∀ i, ValidIdx r.shape i → ∀ l, Enumerates a.shape axes i l → R i = momentOf X k l := by
  obtain ⟨⟨h', r, e1, e2, -, e4, e5⟩, e6⟩ :=
    C114_new realOps realMoment k a axes h X hax hwf hX hb junk1 junk2
  refine ⟨_, h', r, e1, e2, e4, e5, fun i hi l hl => ?_⟩
  have hp := enumerates_perm (e6 i (by rw [← e2]; exact hi)) hl
  simp only [slabMoment_real]
  rw [devSum_perm hp, devSum_perm (k := 2) hp, hp.length_eq]
  rfl

/-- **C114 (shift)**: adding a constant to every element changes nothing. -/
theorem C114_shift_invariant (X : List Int → ℝ) (d : ℝ) (k : Nat) (l : List (List Int))
    (hl : l ≠ []) : momentOf (fun j => X j + d) k l = momentOf X k l := by
  have e : ∀ k, devSum (fun j => X j + d) k l = devSum X k l := by
    intro k
    have := devSum_affine X 1 d k l hl
    simpa using this
  unfold momentOf
  rw [e, e]

/-- **C114 (degree 2)**: the second standardized moment, which is 1, comes out as `v / (eps + v)`,
less than 1 for every slab. -/
theorem C114_second_degree (X : List Int → ℝ) (l : List (List Int)) (h2 : 2 ≤ l.length)
    (hpos : 0 < devSum X 2 l) : stdMoment X 2 l = 1 ∧ momentOf X 2 l < 1 := by
  have hn1 : (0 : ℝ) < (l.length : ℝ) - 1 := by
    have : (2 : ℝ) ≤ l.length := by exact_mod_cast h2
    linarith
  have hn : (0 : ℝ) < l.length := by linarith
  have he : 0 < floatEps := by unfold floatEps; positivity
  unfold stdMoment momentOf
  have : ((2 : Nat) : ℝ) / 2 = 1 := by norm_num
  rw [this, Real.rpow_one, Real.rpow_one]
  have hq : 0 < devSum X 2 l / ((l.length : ℝ) - 1) := by positivity
  refine ⟨div_self (by positivity), ?_⟩
  rw [div_lt_one (by positivity)]
  linarith

theorem rpow_nat_two (x : ℝ) (hx : 0 ≤ x) (k : Nat) : (x ^ 2) ^ ((k : ℝ) / 2) = x ^ k := by
  rw [← Real.rpow_natCast x 2, ← Real.rpow_mul hx]
  rw [show (((2 : Nat) : ℝ)) * ((k : ℝ) / 2) = k by push_cast; ring, Real.rpow_natCast]

/-- **Violation of C114 (scale)**. A standardized moment does not depend on the unit of the
elements; this one does: whatever the elements and the degree (at least 1), in a large enough unit
the result is as close to 0 as one likes. -/
theorem C114_scale_dependent (X : List Int → ℝ) (k : Nat) (hk : 1 ≤ k) (l : List (List Int))
    (h2 : 2 ≤ l.length) (δ : ℝ) (hδ : 0 < δ) :
    ∃ c > 0, |momentOf (fun j => c * X j) k l| < δ ∧
      stdMoment (fun j => c * X j) k l = stdMoment X k l := by
  have hl : l ≠ [] := by intro e; subst e; simp at h2
  have hn1 : (0 : ℝ) < (l.length : ℝ) - 1 := by
    have : (2 : ℝ) ≤ l.length := by exact_mod_cast h2
    linarith
  have hn : (0 : ℝ) < l.length := by linarith
  have he : 0 < floatEps := by unfold floatEps; positivity
  have haff : ∀ c : ℝ, ∀ k, devSum (fun j => c * X j) k l = c ^ k * devSum X k l := by
    intro c k
    have := devSum_affine X c 0 k l hl
    simpa using this
  have hS := devSum_two_nonneg X l
  generalize hM : |devSum X k l| / ((l.length : ℝ) - 1) / floatEps = B
  have hB : 0 ≤ B := by rw [← hM]; positivity
  refine ⟨Min.min 1 (δ / (B + 1)), by positivity, ?_, ?_⟩
  · have hc0 : 0 < Min.min 1 (δ / (B + 1)) := by positivity
    have hc1 : Min.min 1 (δ / (B + 1)) ≤ 1 := min_le_left _ _
    have hc2 : Min.min 1 (δ / (B + 1)) ≤ δ / (B + 1) := min_le_right _ _
    generalize Min.min 1 (δ / (B + 1)) = c at *
    unfold momentOf
    rw [haff, haff]
    have hq : 0 ≤ (c ^ 2 * devSum X 2 l / ((l.length : ℝ) - 1)) ^ ((k : ℝ) / 2) := by positivity
    generalize (c ^ 2 * devSum X 2 l / ((l.length : ℝ) - 1)) ^ ((k : ℝ) / 2) = q at hq
    rw [abs_div, abs_div, abs_mul, abs_of_pos hn1, abs_of_pos (show 0 < floatEps + q by linarith),
      abs_of_pos (pow_pos hc0 k)]
    have hck : c ^ k ≤ c := by
      calc c ^ k ≤ c ^ 1 := pow_le_pow_of_le_one hc0.le hc1 hk
        _ = c := pow_one c
    calc c ^ k * |devSum X k l| / ((l.length : ℝ) - 1) / (floatEps + q)
        ≤ c ^ k * |devSum X k l| / ((l.length : ℝ) - 1) / floatEps := by
          apply div_le_div_of_nonneg_left _ he (by linarith)
          positivity
      _ = c ^ k * B := by rw [← hM]; ring
      _ ≤ c * B := mul_le_mul_of_nonneg_right hck hB
      _ ≤ δ / (B + 1) * B := mul_le_mul_of_nonneg_right hc2 hB
      _ < δ := by
        rw [div_mul_eq_mul_div, div_lt_iff₀ (by linarith)]
        nlinarith
  · have hc0 : 0 < Min.min 1 (δ / (B + 1)) := by positivity
    generalize Min.min 1 (δ / (B + 1)) = c at *
    unfold stdMoment
    rw [haff, haff, mul_div_assoc, mul_div_assoc (c ^ 2),
      Real.mul_rpow (by positivity) (by positivity), rpow_nat_two c hc0.le]
    have : c ^ k ≠ 0 := by positivity
    rw [mul_div_mul_left _ _ this]

/-- **C114 (accuracy)**: relative to the moment with `n - 1` in place of `n`, the error is at most
`eps / s^k`: small when the elements spread over much more than `eps^(1/k)`. -/
theorem C114_accuracy (X : List Int → ℝ) (k : Nat) (l : List (List Int)) (h2 : 2 ≤ l.length)
    (hpos : 0 < devSum X 2 l) :
    let s := (devSum X 2 l / ((l.length : ℝ) - 1)) ^ ((k : ℝ) / 2)
    let T := devSum X k l / ((l.length : ℝ) - 1) / s
    |momentOf X k l - T| ≤ |T| * (floatEps / s) := by
  have hn1 : (0 : ℝ) < (l.length : ℝ) - 1 := by
    have : (2 : ℝ) ≤ l.length := by exact_mod_cast h2
    linarith
  have he : 0 < floatEps := by unfold floatEps; positivity
  have hs : 0 < (devSum X 2 l / ((l.length : ℝ) - 1)) ^ ((k : ℝ) / 2) :=
    Real.rpow_pos_of_pos (by positivity) _
  simp only [momentOf]
  generalize (devSum X 2 l / ((l.length : ℝ) - 1)) ^ ((k : ℝ) / 2) = s at hs
  generalize devSum X k l / ((l.length : ℝ) - 1) = M
  have : M / (floatEps + s) - M / s = -(M / s * (floatEps / (floatEps + s))) := by
    field_simp
    ring
  rw [this, abs_neg, abs_mul]
  refine mul_le_mul_of_nonneg_left ?_ (abs_nonneg _)
  rw [abs_of_pos (by positivity)]
  exact div_le_div_of_nonneg_left he.le hs (by linarith)

/-- **Violation of C114 (kurtosis)**: even without `eps`, the fourth moment is too small by the
factor `(n-1)/n`: for two elements `-c`, `c` the kurtosis is 1, the result is below 1/2. -/
theorem C114_not_kurtosis (X : List Int → ℝ) (i j : List Int) (c : ℝ) (hc : c ≠ 0) (hi : X i = -c)
    (hj : X j = c) : stdMoment X 4 [i, j] = 1 ∧ momentOf X 4 [i, j] < 1 / 2 := by
  have he : 0 < floatEps := by unfold floatEps; positivity
  have ha : avg X [i, j] = 0 := by simp [avg, hi, hj]
  have h4 : devSum X 4 [i, j] = 2 * c ^ 4 := by simp [devSum, ha, hi, hj]; ring
  have h2 : devSum X 2 [i, j] = 2 * c ^ 2 := by simp [devSum, ha, hi, hj]; ring
  have hc2 : 0 < c ^ 2 := by positivity
  unfold stdMoment momentOf
  rw [h4, h2]
  have h22 : ((4 : Nat) : ℝ) / 2 = ((2 : Nat) : ℝ) := by norm_num
  rw [h22, Real.rpow_natCast, Real.rpow_natCast]
  simp only [List.length_cons, List.length_nil]
  push_cast
  constructor
  · field_simp
  · rw [div_lt_iff₀ (by positivity)]
    nlinarith [pow_pos hc2 2]

/-! ## Slabs of one element -/

/-- **Violation of C114 (one element)**. For slabs of one element `scale` is `1/0`.  `bad` says of a
`double` that it is NaN: if a zero times `1/0` is NaN and NaN stays NaN when something is added to
it, it is divided or it is converted, every result is NaN.  (The hypotheses on `+`, `·` and `/` hold
of IEEE arithmetic; the fourth says that the deviation of one number from its own mean, and each of
its powers of positive degree, is zero.) -/
theorem C114_one_element (o : StatOps V D) (m : MomentOps V D) (degree : Int) (a : Arr)
    (axes : List Int) (h : Heap V) (X : List Int → V) (hax : GoodAxes a axes) (hwf : a.WF)
    (hX : h.Contains a X) (hb : a.blk < h.next) (junk1 junk2 : Int → V)
    (zero bad : D → Prop) (badV : V → Prop)
    (hmul : ∀ x, zero x → bad (o.mul x (o.div (o.ofInt 1) (o.ofInt 0))))
    (hadd : ∀ x y, bad y → bad (o.add x y)) (hdiv : ∀ x y, bad x → bad (o.div x y))
    (htoV : ∀ x, bad x → badV (o.toV x))
    (hpow : ∀ v, zero (m.powInt (o.toD (m.subV v (o.toV (o.div (o.add o.zero (o.toD v)) (o.ofInt 1)))))
      degree))
    (hone : count a axes = 1) :
    ∃ (R : List Int → V) (h' : Heap V) (r : Arr),
      standardizedMoment o m degree a axes junk1 junk2 h = .ok (h', r) ∧ h'.Contains r R ∧
      ∀ i, ValidIdx r.shape i → badV (R i) := by
  obtain ⟨⟨h', r, e1, e2, -, e4, -⟩, -⟩ := C114_new o m degree a axes h X hax hwf hX hb junk1 junk2
  refine ⟨_, h', r, e1, e4, fun i _ => ?_⟩
  have hlen : (order a.shape axes i).length = 1 := by
    have := count_eq axes hwf i
    omega
  obtain ⟨j, hj⟩ := List.length_eq_one_iff.1 hlen
  simp only [hj, slabMoment, slabMean, momentFinish, List.foldl_cons, List.foldl_nil, momentStep,
    momentScale, List.length_singleton]
  refine htoV _ (hdiv _ _ (hadd _ _ ?_))
  have := hmul _ (hpow (X j))
  simpa using this

/-- Numbers with a NaN (`none`). -/
def nanOps : StatOps (Option ℚ) (Option ℚ) where
  toD := id
  toV := id
  zero := some 0
  add := fun x y => x.bind fun x => y.map (x + ·)
  sub := fun x y => x.bind fun x => y.map (x - ·)
  mul := fun x y => x.bind fun x => y.map (x * ·)
  div := fun x y => x.bind fun x => y.bind fun y => if y = 0 then none else some (x / y)
  ofInt := fun n => some n
  sqrt := id
  clip := id
  zeroV := some 0
  addV := fun x y => x.bind fun x => y.map (x + ·)
  gtV := fun _ _ => false
  lowest := some 0

/-- Powers with a NaN; the half power of an even degree. -/
def nanMoment : MomentOps (Option ℚ) (Option ℚ) where
  subV := nanOps.sub
  powInt := fun x k => x.map (· ^ k)
  powHalf := fun x k => x.map (· ^ (k / 2))
  eps := some (11258999 / 2 ^ 50)

-- the hypotheses of `C114_one_element` hold of it, whatever is stored (also NaN)
example : let o := nanOps; let m := nanMoment
    let zero : Option ℚ → Prop := fun x => x = some 0 ∨ x = none
    (∀ x, zero x → o.mul x (o.div (o.ofInt 1) (o.ofInt 0)) = none) ∧
    (∀ x y, y = none → o.add x y = none) ∧ (∀ x y, x = none → o.div x y = none) ∧
    (∀ v, zero (m.powInt (o.toD (m.subV v
      (o.toV (o.div (o.add o.zero (o.toD v)) (o.ofInt 1))))) 4)) := by
  refine ⟨?_, ?_, ?_, ?_⟩
  · intro x _; cases x <;> simp [nanOps]
  · rintro x y rfl; cases x <;> simp [nanOps]
  · rintro x y rfl; rfl
  · intro v; cases v <;> simp [nanOps, nanMoment]

/-- Heap with one block of such numbers. -/
def heapNan (l : List ℚ) : Heap (Option ℚ) :=
  ⟨fun b i => if b = 0 ∧ 0 ≤ i then (l[i.toNat]?).map some else none, 1⟩

-- fourth moments of the rows of a 2×3 array, close to 1 (the kurtosis of three equidistant
-- numbers is 3/2), and of slabs of one element: NaN
example : (resultAt (standardizedMoment nanOps nanMoment 4 arr23 [1] (fun _ => none) (fun _ => none)
      (heapNan [1, 2, 3, 40, 50, 60])) [0]).map (·.map fun x => decide (|x - 1| < 1 / 10 ^ 6)) =
    some (some true) ∧
    resultAt (standardizedMoment nanOps nanMoment 4 ⟨0, [⟨2, 1, 0⟩, ⟨1, 1, 0⟩]⟩ [1] (fun _ => none)
      (fun _ => none) (heapNan [1, 2])) [1] = some none := by
  decide +kernel

-- two elements meet the hypotheses of `C114_value_partial` about a slab
example : 0 < devSum (fun j => if j = [0] then (1 : ℝ) else 3) 2 [[0], [1]] := by
  have : avg (fun j => if j = [0] then (1 : ℝ) else 3) [[0], [1]] = 2 := by
    simp [avg]; norm_num
  simp only [devSum, this]
  norm_num

end Bliss.Stat
