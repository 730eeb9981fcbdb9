import Verif.Nd.Binary

/-! # Dense arrays: layout of a freshly created array -/

namespace Bliss.Nd

variable {V : Type}

theorem denseDims_shape (shape : List Int) : (denseDims shape).1.map Dim.size = shape := by
  induction shape with
  | nil => rfl
  | cons s ss ih => simp [denseDims, ih]

theorem denseDims_numel (shape : List Int) :
    (denseDims shape).2 = shape.foldl (· * ·) 1 := by
  induction shape with
  | nil => rfl
  | cons s ss ih =>
    simp only [denseDims, List.foldl_cons]
    rw [foldl_mul_shift, ih]; ring

/-- Bounds of the dense address. -/
theorem dense_bounds {shape idx : List Int} (h : ValidIdx shape idx) :
    0 ≤ addr (denseDims shape).1 idx ∧ addr (denseDims shape).1 idx < (denseDims shape).2 := by
  unfold ValidIdx at h
  induction h with
  | nil => simp [denseDims, addr]
  | @cons s i ss is h _ ih =>
    simp only [denseDims, addr]
    have h1 : 0 ≤ i * (denseDims ss).2 := Int.mul_nonneg h.1 (by omega)
    have h2 : (i + 1) * (denseDims ss).2 ≤ s * (denseDims ss).2 :=
      Int.mul_le_mul_of_nonneg_right (by omega) (by omega)
    have h3 : (i + 1) * (denseDims ss).2 = i * (denseDims ss).2 + (denseDims ss).2 := by ring
    have h4 : (denseDims ss).2 * s = s * (denseDims ss).2 := by ring
    omega

theorem dense_lex {shape i j : List Int} (hi : ValidIdx shape i) (hj : ValidIdx shape j)
    (hlt : i < j) : addr (denseDims shape).1 i < addr (denseDims shape).1 j := by
  unfold ValidIdx at hi
  induction hi generalizing j with
  | nil => cases hj; simp at hlt
  | @cons s x ss is h hs ih =>
    cases j with
    | nil => cases hj
    | cons y js =>
      have hj' := List.forall₂_cons.mp hj
      simp only [denseDims, addr]
      rcases List.cons_lt_cons_iff.mp hlt with hxy | ⟨rfl, hlt2⟩
      · have b1 := dense_bounds (show ValidIdx ss is from hs)
        have b2 := dense_bounds (show ValidIdx ss js from hj'.2)
        have h2 : (x + 1) * (denseDims ss).2 ≤ y * (denseDims ss).2 :=
          Int.mul_le_mul_of_nonneg_right (by omega) (by omega)
        have h3 : (x + 1) * (denseDims ss).2 = x * (denseDims ss).2 + (denseDims ss).2 := by ring
        omega
      · have := ih hj'.2 hlt2
        omega

theorem lex_trichotomy (i j : List Int) : i < j ∨ i = j ∨ j < i := by
  induction i generalizing j with
  | nil => cases j <;> simp
  | cons x i ih =>
    cases j with
    | nil => simp
    | cons y j =>
      rcases lt_trichotomy x y with h | rfl | h
      · exact .inl (List.cons_lt_cons_iff.mpr (.inl h))
      · rcases ih j with h | rfl | h
        · exact .inl (List.cons_lt_cons_iff.mpr (.inr ⟨rfl, h⟩))
        · exact .inr (.inl rfl)
        · exact .inr (.inr (List.cons_lt_cons_iff.mpr (.inr ⟨rfl, h⟩)))
      · exact .inr (.inr (List.cons_lt_cons_iff.mpr (.inl h)))

theorem dense_inj {shape i j : List Int} (hi : ValidIdx shape i) (hj : ValidIdx shape j)
    (he : addr (denseDims shape).1 i = addr (denseDims shape).1 j) : i = j := by
  unfold ValidIdx at hi
  induction hi generalizing j with
  | nil => cases hj; rfl
  | @cons s x ss is h hs ih =>
    cases j with
    | nil => cases hj
    | cons y js =>
      have hj' := List.forall₂_cons.mp hj
      simp only [denseDims, addr] at he
      have b1 := dense_bounds (show ValidIdx ss is from hs)
      have b2 := dense_bounds (show ValidIdx ss js from hj'.2)
      have hxy : x = y := by
        rcases lt_trichotomy x y with h1 | h1 | h1
        · have h2 : (x + 1) * (denseDims ss).2 ≤ y * (denseDims ss).2 :=
            Int.mul_le_mul_of_nonneg_right (by omega) (by omega)
          have h3 : (x + 1) * (denseDims ss).2 = x * (denseDims ss).2 + (denseDims ss).2 := by ring
          omega
        · exact h1
        · have h2 : (y + 1) * (denseDims ss).2 ≤ x * (denseDims ss).2 :=
            Int.mul_le_mul_of_nonneg_right (by omega) (by omega)
          have h3 : (y + 1) * (denseDims ss).2 = y * (denseDims ss).2 + (denseDims ss).2 := by ring
          omega
      subst hxy
      have := ih hj'.2 (by omega)
      rw [this]

theorem dense_surj {shape : List Int} (hs : ∀ s ∈ shape, 0 ≤ s) (k : Int) (h0 : 0 ≤ k)
    (hk : k < (denseDims shape).2) :
    ∃ idx, ValidIdx shape idx ∧ addr (denseDims shape).1 idx = k := by
  induction shape generalizing k with
  | nil => exact ⟨[], .nil, by simp [denseDims] at hk; simp [addr, denseDims]; omega⟩
  | cons s ss ih =>
    simp only [denseDims] at hk
    have hs0 := hs s (by simp)
    have hpos : 0 < (denseDims ss).2 := by
      by_contra hc
      have : (denseDims ss).2 * s ≤ 0 * s := Int.mul_le_mul_of_nonneg_right (by omega) hs0
      omega
    obtain ⟨is, hv, ha⟩ := ih (fun x hx => hs x (by simp [hx])) (k % (denseDims ss).2)
      (Int.emod_nonneg _ (by omega)) (Int.emod_lt_of_pos _ hpos)
    refine ⟨(k / (denseDims ss).2) :: is, .cons ⟨Int.ediv_nonneg h0 (by omega), ?_⟩ hv, ?_⟩
    · exact Int.ediv_lt_of_lt_mul hpos (by rw [mul_comm]; exact hk)
    · simp only [denseDims, addr, ha]
      have := Int.emod_add_mul_ediv k (denseDims ss).2
      rw [mul_comm] at this
      omega

/-! ## `alloc` -/

theorem alloc_props (h : Heap V) (shape : List Int) (junk : Int → V) (hs : ∀ s ∈ shape, 0 ≤ s) :
    let r := alloc h shape junk
    r.2.shape = shape ∧ r.2.WF ∧ r.2.Distinct ∧ r.1.Mapped r.2 ∧ r.2.blk = h.next ∧
      r.1.next = h.next + 1 ∧ ∀ b, b < h.next → r.1.mem b = h.mem b := by
  refine ⟨?_, ?_, ?_, ?_, rfl, rfl, ?_⟩
  · exact denseDims_shape shape
  · intro d hd
    apply hs
    rw [← denseDims_shape shape]
    exact List.mem_map_of_mem hd
  · intro i j hi hj he
    simp only [Arr.shape, alloc, denseDims_shape] at hi hj
    exact dense_inj hi hj he
  · intro idx hidx
    simp only [Arr.shape, alloc, denseDims_shape] at hidx
    have := dense_bounds hidx
    simp [Heap.get, alloc, Buf.ofFn, this.1, this.2]
  · intro b hb
    have : b ≠ h.next := by omega
    simp [alloc, this]

theorem Contains.frame {h h' : Heap V} {a : Arr} {A : List Int → V} (hA : h.Contains a A)
    (hb : a.blk < h.next) (hf : h.Frame h') : h'.Contains a A := by
  intro idx hidx
  have := hA idx hidx
  simp only [Heap.get] at this ⊢
  rw [hf _ hb]; exact this

theorem shape_nonneg {a : Arr} (h : a.WF) : ∀ s ∈ a.shape, 0 ≤ s := by
  intro s hs
  simp only [Arr.shape, List.mem_map] at hs
  obtain ⟨d, hd, rfl⟩ := hs
  exact h d hd

/-- From "updated the fresh array" to "returned a fresh array with these contents". -/
theorem fresh_of_updated {h h1 h2 : Heap V} {out : Arr} {A : List Int → V}
    (hf : h.Frame h1) (hblk : out.blk = h.next) (hn : h1.next = h.next + 1)
    (hu : h1.Updated h2 out A) (hn2 : h2.next = h1.next) :
    h2.Contains out A ∧ h.Frame h2 ∧ h2.next = h.next + 1 := by
  refine ⟨hu.1, ?_, by omega⟩
  intro b hb
  rw [← hf b hb]
  funext i
  exact hu.2 b i (fun e => by omega)

end Bliss.Nd
