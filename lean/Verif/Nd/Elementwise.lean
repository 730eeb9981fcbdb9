import Verif.Nd.Loops
import Mathlib.Algebra.BigOperators.Group.List.Basic

/-! # Element-wise loops against the array specification -/

set_option linter.unusedSectionVars false

namespace Bliss.Nd

variable {V : Type} {P : Type} [AddCommGroup P]

/-- Σ index * stride. -/
def sdot : List Int → List Int → Int
  | s :: ss, i :: is => i * s + sdot ss is
  | _, _ => 0

theorem foldl_add_shift (l : List Int) (x : Int) : l.foldl (· + ·) x = x + l.foldl (· + ·) 0 := by
  induction l generalizing x with
  | nil => simp
  | cons y l ih => simp only [List.foldl_cons]; rw [ih (x + y), ih (0 + y)]; omega

theorem foldl_mul_shift (l : List Int) (x : Int) : l.foldl (· * ·) x = x * l.foldl (· * ·) 1 := by
  induction l generalizing x with
  | nil => simp
  | cons y l ih =>
    simp only [List.foldl_cons]
    rw [ih (x * y), ih (1 * y)]; ring

theorem addr_eq (ds : List Dim) (idx : List Int) (h : idx.length = ds.length) :
    addr ds idx = (ds.map Dim.offset).foldl (· + ·) 0 + sdot (ds.map Dim.stride) idx := by
  induction ds generalizing idx with
  | nil => cases idx <;> simp_all [addr, sdot]
  | cons d ds ih =>
    cases idx with
    | nil => simp at h
    | cons i is =>
      simp only [addr, List.map_cons, sdot, List.foldl_cons]
      rw [ih is (by simpa using h), foldl_add_shift _ (0 + d.offset)]
      omega

theorem ValidIdx.length_eq {shape idx : List Int} (h : ValidIdx shape idx) :
    idx.length = shape.length := (List.Forall₂.length_eq h).symm

theorem inBox_iff (ld : List (LoopDim P)) (idx : List Int) :
    InBox ld idx ↔ ValidIdx (ld.map LoopDim.size) idx := by
  induction ld generalizing idx with
  | nil => simp [InBox, ValidIdx]
  | cons d ds ih =>
    cases idx with
    | nil => simp [InBox, ValidIdx]
    | cons i is => simp [InBox, ValidIdx, ih, and_assoc]

theorem cells_eq (ld : List (LoopDim P)) (h : ∀ d ∈ ld, 0 ≤ d.size) :
    ((cells ld : Nat) : Int) = (ld.map LoopDim.size).foldl (· * ·) 1 := by
  induction ld with
  | nil => rfl
  | cons d ds ih =>
    simp only [cells, List.map_cons, List.foldl_cons]
    rw [foldl_mul_shift, ← ih (fun x hx => h x (by simp [hx]))]
    have := h d (by simp)
    push_cast
    rw [Int.toNat_of_nonneg this]; ring

theorem zeros_eq (ld : List (LoopDim P)) : zeros ld = ld.map (fun _ => 0) := by
  induction ld with
  | nil => rfl
  | cons d ds ih => simp [zeros, ih]

theorem cells_zero_of_mem {ld : List (LoopDim P)} {d : LoopDim P} (hd : d ∈ ld)
    (h : d.size ≤ 0) : cells ld = 0 := by
  induction ld with
  | nil => simp at hd
  | cons e ds ih =>
    rcases List.mem_cons.mp hd with rfl | hd
    · simp only [cells]; rw [Int.toNat_of_nonpos h, Nat.zero_mul]
    · simp only [cells, ih hd, Nat.mul_zero]

/-- From writes in row-major order to the updated view. -/
theorem Wrote.updated {h h' : Heap V} {out : Arr} {ld : List (LoopDim P)}
    (hsz : ld.map LoopDim.size = out.shape) {A : List Int → V}
    (w : Wrote h h' out.blk (cells ld) (fun k => addr out.dims (unravel ld k))
      (fun k => A (unravel ld k))) :
    h.Updated h' out A := by
  constructor
  · intro idx hidx
    have hb : InBox ld idx := (inBox_iff ld idx).mpr (by rw [hsz]; exact hidx)
    have := w.done (ravel ld idx) (ravel_lt hb)
    rwa [unravel_ravel hb] at this
  · intro b i hb
    refine w.same b i (fun e k hk => hb e _ ?_)
    rw [← hsz]; exact (inBox_iff ld _).mp (unravel_inBox hk)

theorem valid_unravel {ld : List (LoopDim P)} {shape : List Int}
    (hsz : ld.map LoopDim.size = shape) {k : Nat} (hk : k < cells ld) :
    ValidIdx shape (unravel ld k) := by
  rw [← hsz]; exact (inBox_iff ld _).mp (unravel_inBox hk)

/-! ## Fill -/

theorem fillDims_dot (ds : List Dim) (idx : List Int) :
    dot (ds.map fun o => ({ size := o.size, stride := o.stride, reset := (o.size - 1) * o.stride } :
      LoopDim Int)) idx = sdot (ds.map Dim.stride) idx := by
  induction ds generalizing idx with
  | nil => cases idx <;> rfl
  | cons d ds ih => cases idx <;> simp [dot, sdot, ih]

theorem fill_spec (v : V) (h : Heap V) (out : Arr) (hwf : out.WF) (hm : h.Mapped out)
    (hd : out.Distinct) :
    ∃ h', fill v h out = .ok h' ∧ h.Updated h' out (fun _ => v) ∧ h'.next = h.next := by
  have hsz : (fillDims out).map LoopDim.size = out.shape := by
    simp [fillDims, Arr.shape, Function.comp_def]
  have hnum : out.numel.toNat = cells (fillDims out) := by
    have := cells_eq (fillDims out) (by
      intro d hd
      simp only [fillDims, List.mem_map] at hd
      obtain ⟨o, ho, rfl⟩ := hd
      exact hwf o ho)
    rw [hsz] at this
    unfold Arr.numel
    omega
  have hz : out.dims.map (fun _ => (0 : Int)) = zeros (fillDims out) := by
    rw [zeros_eq]; simp [fillDims, Function.comp_def]
  have haddr : ∀ k < cells (fillDims out), out.base + dot (fillDims out) (unravel (fillDims out) k)
      = addr out.dims (unravel (fillDims out) k) := by
    intro k hk
    rw [addr_eq _ _ (by rw [unravel_length]; simp [fillDims]), fillDims, fillDims_dot]; rfl
  unfold fill
  rw [hnum, hz]
  by_cases hpos : ∀ d ∈ fillDims out, 0 < d.size
  · have hr : ResetA (fillDims out) := by
      intro d hd
      refine ⟨hpos d hd, ?_⟩
      simp only [fillDims, List.mem_map] at hd
      obtain ⟨o, ho, rfl⟩ := hd
      simp
    obtain ⟨st, h1, w⟩ := loop1 v (h := h) (oBlk := out.blk) hr out.base
      (fun k hk => by rw [haddr k hk]; exact hm _ (valid_unravel hsz hk))
      (fun j hj k hk he => by
        rw [haddr k (by omega), haddr j hj] at he
        have := hd _ _ (valid_unravel hsz (by omega)) (valid_unravel hsz hj) he
        have := unravel_inj (by omega) hj this
        omega)
    refine ⟨st.1, by rw [h1]; rfl, ?_, w.next⟩
    refine Wrote.updated hsz (A := fun _ => v) ⟨w.next, ?_, ?_⟩
    · intro k hk; rw [← haddr k hk]; exact w.done k hk
    · intro b i hb; exact w.same b i (fun e k hk => by rw [haddr k hk]; exact hb e k hk)
  · push Not at hpos
    obtain ⟨d, hd1, hd2⟩ := hpos
    have h0 := cells_zero_of_mem hd1 hd2
    rw [h0]
    refine ⟨h, by simp, ?_, rfl⟩
    refine Wrote.updated hsz (A := fun _ => v) ?_
    rw [h0]; exact Wrote.refl _ _ _ _

/-! ## Scalar and unary loops -/

/-- The output of a two-operand loop never overwrites an input element before it is read. -/
def NoClobber (out a : Arr) : Prop :=
  a.blk = out.blk → ∀ i j, ValidIdx out.shape i → ValidIdx out.shape j → i ≠ j →
    addr out.dims i ≠ addr a.dims j

/-- Core of `scalarLoop` and `unaryLoop`: the loop dimensions `ld` address `a` and `out`. -/
theorem loop2_spec (op : V → V) (h : Heap V) (out : Arr) (aBlk : Nat) (aBase : Int)
    (aAddr : List Int → Int) (ld : List (LoopDim (Int × Int)))
    (hsz : ld.map LoopDim.size = out.shape)
    (hreset : ∀ d ∈ ld, d.reset = (d.size - 1) • d.stride)
    (haddrA : ∀ idx, ValidIdx out.shape idx → aBase + (dot ld idx).1 = aAddr idx)
    (haddrO : ∀ idx, ValidIdx out.shape idx → out.base + (dot ld idx).2 = addr out.dims idx)
    (hwf : out.WF) {A : List Int → V}
    (hA : ∀ idx, ValidIdx out.shape idx → h.mem aBlk (aAddr idx) = some (A idx))
    (hm : h.Mapped out) (hd : out.Distinct)
    (hno : aBlk = out.blk → ∀ i j, ValidIdx out.shape i → ValidIdx out.shape j → i ≠ j →
      addr out.dims i ≠ aAddr j) :
    ∃ h', (do
      let (h', _, _) ← forLoop out.numel.toNat (fun _ st => body2 op aBlk out.blk ld st)
        (h, out.dims.map (fun _ => 0), (aBase, out.base))
      pure h') = .ok h' ∧ h.Updated h' out (fun idx => op (A idx)) ∧ h'.next = h.next := by
  have hnum : out.numel.toNat = cells ld := by
    have := cells_eq ld (by
      intro d hd
      have : d.size ∈ out.shape := by rw [← hsz]; exact List.mem_map_of_mem hd
      simp only [Arr.shape, List.mem_map] at this
      obtain ⟨o, ho, ho2⟩ := this
      rw [← ho2]; exact hwf o ho)
    rw [hsz] at this
    unfold Arr.numel
    omega
  have hz : out.dims.map (fun _ => (0 : Int)) = zeros ld := by
    rw [zeros_eq]
    have : ld.length = out.dims.length := by
      have := congrArg List.length hsz
      simpa [Arr.shape] using this
    rw [List.map_const', List.map_const', this]
  have hO : ∀ k < cells ld, ((aBase, out.base) + dot ld (unravel ld k)).2 =
      addr out.dims (unravel ld k) := fun k hk => haddrO _ (valid_unravel hsz hk)
  have hAA : ∀ k < cells ld, ((aBase, out.base) + dot ld (unravel ld k)).1 =
      aAddr (unravel ld k) := fun k hk => haddrA _ (valid_unravel hsz hk)
  rw [hnum, hz]
  by_cases hpos : ∀ d ∈ ld, 0 < d.size
  · obtain ⟨st, h1, w⟩ := loop2 op (h := h) (aBlk := aBlk) (oBlk := out.blk) (ld := ld)
      (fun d hd => ⟨hpos d hd, hreset d hd⟩) (aBase, out.base) (A := fun k => A (unravel ld k))
      (fun k hk => by rw [hAA k hk]; exact hA _ (valid_unravel hsz hk))
      (fun k hk => by rw [hO k hk]; exact hm _ (valid_unravel hsz hk))
      (fun j hj k hk he => by
        rw [hO k (by omega), hO j hj] at he
        have := hd _ _ (valid_unravel hsz (by omega)) (valid_unravel hsz hj) he
        have := unravel_inj (by omega) hj this
        omega)
      (fun e j hj k hk he => by
        rw [hO k (by omega), hAA j hj] at he
        refine hno e _ _ (valid_unravel hsz (by omega)) (valid_unravel hsz hj) ?_ he
        intro he2
        have := unravel_inj (by omega) hj he2
        omega)
    refine ⟨st.1, by rw [h1]; rfl, ?_, w.next⟩
    refine Wrote.updated hsz (A := fun idx => op (A idx)) ⟨w.next, ?_, ?_⟩
    · intro k hk; rw [← hO k hk]; exact w.done k hk
    · intro b i hb; exact w.same b i (fun e k hk => by rw [hO k hk]; exact hb e k hk)
  · push Not at hpos
    obtain ⟨d, hd1, hd2⟩ := hpos
    have h0 := cells_zero_of_mem hd1 hd2
    rw [h0]
    refine ⟨h, by simp, ?_, rfl⟩
    refine Wrote.updated hsz (A := fun idx => op (A idx)) ?_
    rw [h0]; exact Wrote.refl _ _ _ _

theorem scalarDims_dot (os as : List Dim) (hlen : as.length = os.length) (idx : List Int) :
    (dot (List.zipWith (fun (o a : Dim) => ({
        size := o.size
        stride := (a.stride, o.stride)
        reset := ((a.size - 1) * a.stride, (o.size - 1) * o.stride) } : LoopDim (Int × Int)))
        os as) idx) =
      (sdot (as.map Dim.stride) idx, sdot (os.map Dim.stride) idx) := by
  induction os generalizing as idx with
  | nil => cases as <;> cases idx <;> simp_all [dot, sdot] <;> rfl
  | cons o os ih =>
    cases as with
    | nil => simp at hlen
    | cons a as =>
      cases idx with
      | nil => rfl
      | cons i is =>
        simp only [List.zipWith_cons_cons, dot, List.map_cons, sdot,
          ih as (by simpa using hlen) is]
        rfl

theorem shape_length (a : Arr) : a.shape.length = a.dims.length := by simp [Arr.shape]

theorem scalarLoop_spec (op : V → V) (h : Heap V) (out a : Arr) (hshape : a.shape = out.shape)
    (hwf : out.WF) {A : List Int → V} (hA : h.Contains a A) (hm : h.Mapped out)
    (hd : out.Distinct) (hno : NoClobber out a) :
    ∃ h', scalarLoop op h out a = .ok h' ∧ h.Updated h' out (fun idx => op (A idx)) ∧
      h'.next = h.next := by
  have hlen : a.dims.length = out.dims.length := by
    rw [← shape_length, ← shape_length, hshape]
  unfold scalarLoop
  rw [if_neg (by omega)]
  have hdot := scalarDims_dot out.dims a.dims hlen
  refine loop2_spec op h out a.blk a.base (addr a.dims) (scalarDims out a) ?_ ?_ ?_ ?_ hwf
    (fun idx hidx => hA idx (by rw [hshape]; exact hidx)) hm hd (fun e => hno e)
  · unfold scalarDims Arr.shape
    rw [List.map_zipWith]
    clear hdot hm hd hwf hno hA hshape
    generalize out.dims = os at hlen ⊢
    generalize a.dims = as at hlen
    induction os generalizing as with
    | nil => cases as <;> simp_all
    | cons o os ih =>
      cases as with
      | nil => simp at hlen
      | cons a as => simp only [List.zipWith_cons_cons, List.map_cons, ih as (by simpa using hlen)]
  · intro d hd'
    have hs : List.Forall₂ (fun o a : Dim => a.size = o.size) out.dims a.dims := by
      unfold Arr.shape at hshape
      clear hdot hm hd hwf hno hA hd'
      generalize out.dims = os at hlen hshape ⊢
      generalize a.dims = as at hlen hshape
      induction os generalizing as with
      | nil => cases as <;> simp_all
      | cons o os ih =>
        cases as with
        | nil => simp at hlen
        | cons a as =>
          simp only [List.map_cons, List.cons.injEq] at hshape
          exact List.Forall₂.cons hshape.1 (ih as (by simpa using hlen) hshape.2)
    unfold scalarDims at hd'
    clear hdot hm hd hwf hno hA hshape
    generalize out.dims = os at hlen hs hd'
    generalize a.dims = as at hlen hs hd'
    induction hs with
    | nil => simp at hd'
    | cons hab _ ih =>
      simp only [List.zipWith_cons_cons, List.mem_cons] at hd'
      rcases hd' with rfl | hd'
      · simp [hab]
      · exact ih (by simpa using hlen) hd'
  · intro idx hidx
    have hl : idx.length = out.dims.length := by rw [hidx.length_eq, shape_length]
    show a.base + (dot (scalarDims out a) idx).1 = _
    unfold scalarDims
    rw [hdot, addr_eq _ _ (by omega)]; rfl
  · intro idx hidx
    have hl : idx.length = out.dims.length := by rw [hidx.length_eq, shape_length]
    show out.base + (dot (scalarDims out a) idx).2 = _
    unfold scalarDims
    rw [hdot, addr_eq _ _ (by omega)]; rfl

end Bliss.Nd
