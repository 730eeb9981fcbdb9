import Verif.Nd.Elementwise
import Mathlib.Data.List.Zip

/-! # Unary and binary loops against the array specification -/

namespace Bliss.Nd

variable {V : Type}

/-! ## Broadcast helpers -/

theorem bcShape_same_rank {s out : List Int}
    (h : List.Forall₂ (fun x o => x = o ∨ x = 1) s out) : bcShape s out = .ok out := by
  induction h with
  | nil => rfl
  | cons h _ ih => simp [bcShape, h, ih]

theorem bcShape_front {x : Int} {xs pre post r : List Int} (hx : ∀ o ∈ pre, x ≠ o ∧ x ≠ 1)
    (hr : bcShape (x :: xs) post = .ok r) :
    bcShape (x :: xs) (pre ++ post) = .ok (List.replicate pre.length 1 ++ r) := by
  induction pre with
  | nil => simpa using hr
  | cons o pre ih =>
    have h1 := hx o (by simp)
    have h2 := ih (fun o ho => hx o (by simp [ho]))
    simp [bcShape, h1.1, h1.2, h2, List.replicate_succ]

/-- The library's front-aligned shape helper agrees with alignment at the last dimension: either
the ranks are equal, or the first size of `s` is not 1 and differs from every leading size of
`out` that `s` does not have. -/
def FrontSafe (s out : List Int) : Prop :=
  s.length = out.length ∨
    ∃ x xs, s = x :: xs ∧ ∀ o ∈ out.take (out.length - s.length), x ≠ o ∧ x ≠ 1

theorem bcShape_ok {s out : List Int} (hb : BroadcastsTo s out) (hf : FrontSafe s out) :
    bcShape s out = .ok (List.replicate (out.length - s.length) 1 ++
      out.drop (out.length - s.length)) := by
  obtain ⟨hlen, hb⟩ := hb
  rcases hf with e | ⟨x, xs, rfl, hx⟩
  · rw [e, Nat.sub_self] at hb ⊢
    simp only [List.drop_zero] at hb
    simpa using bcShape_same_rank hb
  · have h := bcShape_front (xs := xs) hx (bcShape_same_rank hb)
    rw [List.take_append_drop] at h
    rw [h, List.length_take]
    congr 3
    omega

theorem bcStrides_ok {s st out : List Int} (hlen : s.length ≤ out.length) :
    bcStrides s st out = .ok (List.replicate (out.length - s.length) 0 ++
      List.zipWith (fun s st => if s ≠ 1 then st else 0) s st) := by
  unfold bcStrides
  have : s.length - out.length = 0 := by omega
  simp [this]

theorem sdot_replicate (k : Nat) (l idx : List Int) :
    sdot (List.replicate k 0 ++ l) idx = sdot l (idx.drop k) := by
  induction k generalizing idx with
  | zero => simp
  | succ k ih =>
    cases idx with
    | nil => cases l <;> simp [List.replicate_succ, sdot]
    | cons i is => simp [List.replicate_succ, sdot, ih]

theorem sdot_bc (s st idx : List Int) (h : st.length = s.length) :
    sdot (List.zipWith (fun s st => if s ≠ 1 then st else 0) s st) idx =
      sdot st (List.zipWith (fun s i => if s = 1 then 0 else i) s idx) := by
  induction s generalizing st idx with
  | nil => cases st <;> simp_all [sdot]
  | cons x s ih =>
    cases st with
    | nil => simp at h
    | cons y st =>
      cases idx with
      | nil => simp [sdot]
      | cons i is =>
        simp only [List.zipWith_cons_cons, sdot, ih st is (by simpa using h)]
        by_cases hx : x = 1 <;> simp [hx]

theorem bcIdx_length {s out idx : List Int} (hb : BroadcastsTo s out) (hv : ValidIdx out idx) :
    (bcIdx s idx).length = s.length := by
  have := hv.length_eq
  have := hb.1
  simp only [bcIdx, List.length_zipWith, List.length_drop]
  omega

theorem bcIdx_valid {s out idx : List Int} (hb : BroadcastsTo s out) (hv : ValidIdx out idx) :
    ValidIdx s (bcIdx s idx) := by
  have hl := hv.length_eq
  obtain ⟨hlen, hb⟩ := hb
  unfold bcIdx
  rw [hl]
  have hv' : ValidIdx (out.drop (out.length - s.length)) (idx.drop (out.length - s.length)) := by
    exact List.forall₂_drop _ hv
  generalize out.drop (out.length - s.length) = o' at hb hv'
  generalize idx.drop (out.length - s.length) = i' at hv'
  clear hl hlen hv
  induction hb generalizing i' with
  | nil => cases i' <;> simp_all [ValidIdx]
  | cons h _ ih =>
    cases i' with
    | nil => simp [ValidIdx] at hv'
    | cons i is =>
      simp only [ValidIdx, List.forall₂_cons] at hv'
      simp only [List.zipWith_cons_cons]
      refine List.Forall₂.cons ?_ (ih is hv'.2)
      split
      · omega
      · rcases h with rfl | h
        · exact hv'.1
        · contradiction

theorem bcIdx_self {s idx : List Int} (hv : ValidIdx s idx) : bcIdx s idx = idx := by
  unfold bcIdx
  rw [hv.length_eq, Nat.sub_self, List.drop_zero]
  unfold ValidIdx at hv
  induction hv with
  | nil => rfl
  | cons h _ ih =>
    simp only [List.zipWith_cons_cons, ih]
    congr 1
    split <;> omega

theorem broadcastsTo_self (s : List Int) : BroadcastsTo s s := by
  refine ⟨Nat.le_refl _, ?_⟩
  rw [Nat.sub_self, List.drop_zero]
  induction s with
  | nil => exact .nil
  | cons x s ih => exact .cons (.inl rfl) ih

theorem bcAddr {a : Arr} {out idx : List Int} (hb : BroadcastsTo a.shape out)
    (hv : ValidIdx out idx) :
    a.base + sdot (List.replicate (out.length - a.shape.length) 0 ++
      List.zipWith (fun s st => if s ≠ 1 then st else 0) a.shape a.strides) idx =
    addr a.dims (bcIdx a.shape idx) := by
  rw [sdot_replicate, sdot_bc _ _ _ (by simp [Arr.strides, Arr.shape]),
    addr_eq _ _ (by rw [bcIdx_length hb hv, shape_length])]
  unfold bcIdx
  rw [hv.length_eq]
  rfl

/-! ## Unary loop, same shape -/

theorem unaryDims_dot (os : List Dim) (sh st : List Int) (h1 : sh.length = os.length)
    (h2 : st.length = os.length) (idx : List Int) :
    dot (List.zipWith (fun (o : Dim) (a : Int × Int) => ({
        size := o.size
        stride := (a.2, o.stride)
        reset := ((a.1 - 1) * a.2, (o.size - 1) * o.stride) } : LoopDim (Int × Int)))
        os (sh.zip st)) idx = (sdot st idx, sdot (os.map Dim.stride) idx) := by
  induction os generalizing sh st idx with
  | nil => cases st <;> cases sh <;> cases idx <;> simp_all [dot, sdot] <;> rfl
  | cons o os ih =>
    cases sh with
    | nil => simp at h1
    | cons x sh =>
      cases st with
      | nil => simp at h2
      | cons y st =>
        cases idx with
        | nil => rfl
        | cons i is =>
          simp only [List.zip_cons_cons, List.zipWith_cons_cons, dot, List.map_cons, sdot,
            ih sh st (by simpa using h1) (by simpa using h2) is]
          rfl

theorem unaryDims_size (os : List Dim) (sh st : List Int) (h1 : sh.length = os.length)
    (h2 : st.length = os.length) :
    (List.zipWith (fun (o : Dim) (a : Int × Int) => ({
        size := o.size
        stride := (a.2, o.stride)
        reset := ((a.1 - 1) * a.2, (o.size - 1) * o.stride) } : LoopDim (Int × Int)))
        os (sh.zip st)).map LoopDim.size = os.map Dim.size := by
  induction os generalizing sh st with
  | nil => simp
  | cons o os ih =>
    cases sh with
    | nil => simp at h1
    | cons x sh =>
      cases st with
      | nil => simp at h2
      | cons y st =>
        simp only [List.zip_cons_cons, List.zipWith_cons_cons, List.map_cons,
            ih sh st (by simpa using h1) (by simpa using h2)]

theorem unaryDims_reset (os : List Dim) (st : List Int) :
    ∀ d ∈ (List.zipWith (fun (o : Dim) (a : Int × Int) => ({
        size := o.size
        stride := (a.2, o.stride)
        reset := ((a.1 - 1) * a.2, (o.size - 1) * o.stride) } : LoopDim (Int × Int)))
        os ((os.map Dim.size).zip st)), d.reset = (d.size - 1) • d.stride := by
  induction os generalizing st with
  | nil => simp
  | cons o os ih =>
    cases st with
    | nil => simp
    | cons y st =>
      intro d hd
      simp only [List.map_cons, List.zip_cons_cons, List.zipWith_cons_cons, List.mem_cons] at hd
      rcases hd with rfl | hd
      · simp
      · exact ih st d hd

theorem unaryLoop_spec (op : V → V) (h : Heap V) (out a : Arr) (hshape : a.shape = out.shape)
    (hwf : out.WF) {A : List Int → V} (hA : h.Contains a A) (hm : h.Mapped out)
    (hd : out.Distinct) (hno : NoClobber out a) :
    ∃ h', unaryLoop op h out a = .ok h' ∧ h.Updated h' out (fun idx => op (A idx)) ∧
      h'.next = h.next := by
  have hlen : a.dims.length = out.dims.length := by
    rw [← shape_length, ← shape_length, hshape]
  have hself := broadcastsTo_self out.shape
  have h1 : (out.shape.drop a.dims.length).any (· ≠ 1) = false := by
    rw [List.drop_of_length_le (by rw [shape_length]; omega)]; rfl
  have h2 : (out.shape.zip out.shape).any (fun s => s.1 ≠ s.2 ∧ s.1 ≠ 1) = false := by
    rw [List.any_eq_false]
    intro x hx
    obtain ⟨x1, x2⟩ := x
    have : x1 = x2 := by
      clear h1 hself hlen hshape hno hd hm hA hwf
      generalize out.shape = l at hx
      induction l with
      | nil => simp at hx
      | cons y l ih =>
        simp only [List.zip_cons_cons, List.mem_cons, Prod.mk.injEq] at hx
        rcases hx with ⟨rfl, rfl⟩ | hx
        · rfl
        · exact ih hx
    simp [this]
  set st := List.zipWith (fun s st => if s ≠ 1 then st else 0) out.shape a.strides with hst
  have hu : unaryLoop op h out a = (do
      let (h', _, _) ← forLoop out.numel.toNat
        (fun _ s => body2 op a.blk out.blk (unaryDims out out.shape st) s)
        (h, out.dims.map (fun _ => 0), (a.base, out.base))
      pure h') := by
    unfold unaryLoop
    rw [hshape, bcShape_same_rank (by simp)]
    simp only [Outcome.bind_ok]
    rw [if_neg (by rw [h1]; simp), bcStrides_ok (Nat.le_refl _), Outcome.bind_ok,
      if_neg (by omega), if_neg (by rw [h2]; simp), Nat.sub_self]
    rfl
  rw [hu]
  have hstl : st.length = out.dims.length := by
    simp [hst, Arr.shape, Arr.strides, hlen]
  have hstl' : out.shape.length = out.dims.length := shape_length out
  have hO : ∀ idx, ValidIdx out.shape idx →
      (dot (unaryDims out out.shape st) idx) = (sdot st idx, sdot (out.dims.map Dim.stride) idx) :=
    fun idx _ => unaryDims_dot out.dims out.shape st hstl' hstl idx
  refine loop2_spec op h out a.blk a.base (addr a.dims) (unaryDims out out.shape st) ?_ ?_ ?_ ?_ hwf
    (fun idx hidx => hA idx (by rw [hshape]; exact hidx)) hm hd (fun e => hno e)
  · exact unaryDims_size out.dims out.shape st hstl' hstl
  · exact unaryDims_reset out.dims st
  · intro idx hidx
    rw [hO idx hidx]
    have := bcAddr (a := a) (out := out.shape) (idx := idx) (by rw [hshape]; exact hself) hidx
    rw [hshape, Nat.sub_self, bcIdx_self hidx, List.replicate_zero, List.nil_append] at this
    exact this
  · intro idx hidx
    rw [hO idx hidx, addr_eq _ _ (by rw [hidx.length_eq, shape_length])]; rfl

/-! ## Binary loop -/

/-- The shape and stride lists used for one operand are consistent: wherever an operand moves
along a dimension, it is rewound by the output's size. -/
def OperandOk (os : List Dim) (sh st : List Int) : Prop :=
  List.Forall₂ (fun (o : Dim) (p : Int × Int) => p.1 * p.2 = o.size * p.2) os (sh.zip st)

theorem forall₂_replicate_zero (os : List Dim) (k : Nat) (h : os.length = k) :
    List.Forall₂ (fun (o : Dim) (p : Int × Int) => p.1 * p.2 = o.size * p.2) os
      ((List.replicate k 1).zip (List.replicate k 0)) := by
  induction os generalizing k with
  | nil => subst h; exact .nil
  | cons o os ih =>
    subst h
    simp only [List.length_cons, List.replicate_succ, List.zip_cons_cons]
    exact .cons (by simp) (ih _ rfl)

theorem operandOk {out a : Arr} (hb : BroadcastsTo a.shape out.shape) :
    OperandOk out.dims (List.replicate (out.shape.length - a.shape.length) 1 ++
        out.shape.drop (out.shape.length - a.shape.length))
      (List.replicate (out.shape.length - a.shape.length) 0 ++
        List.zipWith (fun s st => if s ≠ 1 then st else 0) a.shape a.strides) := by
  unfold OperandOk
  obtain ⟨hlen, hb⟩ := hb
  generalize hk : out.shape.length - a.shape.length = k at *
  rw [List.zip_append (by simp), ← List.take_append_drop k out.dims]
  refine List.rel_append (forall₂_replicate_zero _ _ ?_) ?_
  · rw [List.length_take]; rw [shape_length] at hk; omega
  · have hl : a.strides.length = a.shape.length := by simp [Arr.shape, Arr.strides]
    simp only [Arr.shape, ← List.map_drop] at hb ⊢
    change List.Forall₂ _ a.shape _ at hb
    change List.Forall₂ _ _ (List.zip _ (List.zipWith _ a.shape _))
    clear hk hlen
    generalize out.dims.drop k = os at *
    generalize a.shape = s at *
    generalize a.strides = st at *
    induction os generalizing s st with
    | nil => simp
    | cons o os ih =>
      cases s with
      | nil => simp at hb
      | cons x s =>
        cases st with
        | nil => simp at hl
        | cons y st =>
          simp only [List.map_cons, List.forall₂_cons] at hb
          simp only [List.map_cons, List.zipWith_cons_cons, List.zip_cons_cons]
          exact .cons (by simp) (ih s hb.2 st (by simpa using hl))

theorem binDims_props (os : List Dim) (ash ast bsh bst : List Int)
    (ha : OperandOk os ash ast) (hb : OperandOk os bsh bst)
    (la : ash.length = os.length) (la' : ast.length = os.length)
    (lb : bsh.length = os.length) (lb' : bst.length = os.length) :
    (binDims os ash ast bsh bst).map LoopDim.size = os.map Dim.size ∧
    (∀ d ∈ binDims os ash ast bsh bst, d.reset = d.size • d.stride) ∧
    ∀ idx, dot (binDims os ash ast bsh bst) idx =
      (sdot ast idx, sdot bst idx, sdot (os.map Dim.stride) idx) := by
  induction os generalizing ash ast bsh bst with
  | nil =>
    cases ash <;> cases ast <;> cases bsh <;> cases bst <;>
      simp_all [binDims]
    intro idx; cases idx <;> rfl
  | cons o os ih =>
    cases ash with
    | nil => simp at la
    | cons a1 ash =>
    cases ast with
    | nil => simp at la'
    | cons a2 ast =>
    cases bsh with
    | nil => simp at lb
    | cons b1 bsh =>
    cases bst with
    | nil => simp at lb'
    | cons b2 bst =>
      simp only [OperandOk, List.zip_cons_cons, List.forall₂_cons] at ha hb
      obtain ⟨i1, i2, i3⟩ := ih ash ast bsh bst ha.2 hb.2 (by simpa using la) (by simpa using la')
        (by simpa using lb) (by simpa using lb')
      simp only [binDims, List.zip_cons_cons, List.zipWith_cons_cons] at i1 i2 i3 ⊢
      refine ⟨by simp only [List.map_cons, i1], ?_, ?_⟩
      · intro d hd
        rcases List.mem_cons.mp hd with rfl | hd
        · simp [ha.1, hb.1]
        · exact i2 d hd
      · intro idx
        cases idx with
        | nil => rfl
        | cons i is =>
          simp only [dot, i3 is, sdot, List.map_cons]
          rfl

/-- The output never overwrites an element of operand `a` that is read later. -/
def NoClobberBc (out a : Arr) : Prop :=
  a.blk = out.blk → ∀ i j, ValidIdx out.shape i → ValidIdx out.shape j → i ≠ j →
    addr out.dims i ≠ addr a.dims (bcIdx a.shape j)

theorem binInto_spec (op : V → V → V) (h : Heap V) (out a b : Arr) (hne : out.dims ≠ [])
    (ha : BroadcastsTo a.shape out.shape) (hb : BroadcastsTo b.shape out.shape)
    (fa : FrontSafe a.shape out.shape) (fb : FrontSafe b.shape out.shape)
    (hwf : out.WF) {A B : List Int → V} (hA : h.Contains a A) (hB : h.Contains b B)
    (hm : h.Mapped out) (hd : out.Distinct) (na : NoClobberBc out a) (nb : NoClobberBc out b) :
    ∃ h', binInto op h out a b = .ok h' ∧
      h.Updated h' out (fun idx => op (A (bcIdx a.shape idx)) (B (bcIdx b.shape idx))) ∧
      h'.next = h.next := by
  unfold binInto
  rw [bcStrides_ok ha.1, bcStrides_ok hb.1, bcShape_ok ha fa, bcShape_ok hb fb]
  simp only [Outcome.bind_ok]
  have hlo := shape_length out
  have hla : a.strides.length = a.shape.length := by simp [Arr.shape, Arr.strides]
  have hlb : b.strides.length = b.shape.length := by simp [Arr.shape, Arr.strides]
  have ha1 := ha.1
  have hb1 := hb.1
  obtain ⟨hsz, hreset, hdot⟩ := binDims_props out.dims _ _ _ _ (operandOk ha) (operandOk hb)
    (by simp; omega) (by simp; omega) (by simp; omega) (by simp; omega)
  set ld := binDims out.dims _ _ _ _ with hld
  replace hsz : ld.map LoopDim.size = out.shape := hsz
  have hldne : ld ≠ [] := by
    intro e
    rw [e] at hsz
    have := congrArg List.length hsz
    rw [shape_length] at this
    exact hne (List.length_eq_zero_iff.mp this.symm)
  obtain ⟨l, hl⟩ := Option.ne_none_iff_exists'.mp (fun e => hldne (List.getLast?_eq_none_iff.mp e))
  simp only [hl]
  have hcells : ((cells ld : Nat) : Int) = out.numel := by
    have := cells_eq ld (by
      intro d hd
      have : d.size ∈ out.shape := by rw [← hsz]; exact List.mem_map_of_mem hd
      simp only [Arr.shape, List.mem_map] at this
      obtain ⟨o, ho, ho2⟩ := this
      rw [← ho2]; exact hwf o ho)
    rw [hsz] at this
    exact this
  have hz : out.dims.map (fun _ => (0 : Int)) = zeros ld := by
    rw [zeros_eq]
    have : ld.length = out.dims.length := by
      have := congrArg List.length hsz
      simpa [Arr.shape] using this
    rw [List.map_const', List.map_const', this]
  have e1 : ∀ k < cells ld, ((a.base, b.base, out.base) + dot ld (unravel ld k)).1 =
      addr a.dims (bcIdx a.shape (unravel ld k)) := by
    intro k hk
    rw [hdot]; exact bcAddr ha (valid_unravel hsz hk)
  have e2 : ∀ k < cells ld, ((a.base, b.base, out.base) + dot ld (unravel ld k)).2.1 =
      addr b.dims (bcIdx b.shape (unravel ld k)) := by
    intro k hk
    rw [hdot]; exact bcAddr hb (valid_unravel hsz hk)
  have e3 : ∀ k < cells ld, ((a.base, b.base, out.base) + dot ld (unravel ld k)).2.2 =
      addr out.dims (unravel ld k) := by
    intro k hk
    rw [hdot, addr_eq _ _ (by rw [(valid_unravel hsz hk).length_eq, shape_length])]; rfl
  rw [hz, ← hcells, Int.toNat_natCast]
  by_cases hpos : ∀ d ∈ ld, 0 < d.size
  · obtain ⟨h', h1, w⟩ := loop3 op (h := h) (aBlk := a.blk) (bBlk := b.blk) (oBlk := out.blk)
      hl (fun d hd => ⟨hpos d hd, hreset d hd⟩) (a.base, b.base, out.base)
      (A := fun k => A (bcIdx a.shape (unravel ld k)))
      (B := fun k => B (bcIdx b.shape (unravel ld k)))
      (fun k hk => by rw [e1 k hk]; exact hA _ (bcIdx_valid ha (valid_unravel hsz hk)))
      (fun k hk => by rw [e2 k hk]; exact hB _ (bcIdx_valid hb (valid_unravel hsz hk)))
      (fun k hk => by rw [e3 k hk]; exact hm _ (valid_unravel hsz hk))
      (fun j hj k hk he => by
        rw [e3 k (by omega), e3 j hj] at he
        have := hd _ _ (valid_unravel hsz (by omega)) (valid_unravel hsz hj) he
        have := unravel_inj (by omega) hj this
        omega)
      (fun e j hj k hk he => by
        rw [e3 k (by omega), e1 j hj] at he
        refine na e _ _ (valid_unravel hsz (by omega)) (valid_unravel hsz hj) ?_ he
        intro he2
        have := unravel_inj (by omega) hj he2
        omega)
      (fun e j hj k hk he => by
        rw [e3 k (by omega), e2 j hj] at he
        refine nb e _ _ (valid_unravel hsz (by omega)) (valid_unravel hsz hj) ?_ he
        intro he2
        have := unravel_inj (by omega) hj he2
        omega)
    refine ⟨h', h1, ?_, w.next⟩
    refine Wrote.updated hsz
      (A := fun idx => op (A (bcIdx a.shape idx)) (B (bcIdx b.shape idx))) ⟨w.next, ?_, ?_⟩
    · intro k hk; rw [← e3 k hk]; exact w.done k hk
    · intro b i hb; exact w.same b i (fun e k hk => by rw [e3 k hk]; exact hb e k hk)
  · push Not at hpos
    obtain ⟨d, hd1, hd2⟩ := hpos
    have h0 := cells_zero_of_mem hd1 hd2
    rw [h0]
    refine ⟨h, by simp [binLoop], ?_, rfl⟩
    refine Wrote.updated hsz
      (A := fun idx => op (A (bcIdx a.shape idx)) (B (bcIdx b.shape idx))) ?_
    rw [h0]; exact Wrote.refl _ _ _ _

end Bliss.Nd
