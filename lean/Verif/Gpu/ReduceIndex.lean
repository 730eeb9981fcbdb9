import Verif.Gpu.Reduce
import Verif.Stat.Core

/-!
# The multi-indices of a reduction

A multi-index of the input is given by two numbers: which result it belongs to (`k`, over the
dimensions that are kept) and which element of that result it is (`r`, over the reduced ones). The
loops of the kernels walk along these numbers.
-/

namespace Bliss.Gpu

open Bliss.Nd

/-- The multi-index of element `r` of result `k`, with what is left of both numbers. -/
def digits : List Int → List Bool → Nat → Nat → List Nat × Nat × Nat
  | s :: ss, f :: fs, r, k =>
    let q := digits ss fs r k
    if f then (q.2.1 % s.toNat :: q.1, q.2.1 / s.toNat, q.2.2)
    else (q.2.2 % s.toNat :: q.1, q.2.1, q.2.2 / s.toNat)
  | _, _, r, k => ([], r, k)

theorem startAxes_eq (shape : List Int) (flags : List Bool) (k : Nat) :
    (startAxes shape flags k).1 = (digits shape flags 0 k).1 ∧
    (startAxes shape flags k).2 = (digits shape flags 0 k).2.2 ∧
    (digits shape flags 0 k).2.1 = 0 := by
  induction shape generalizing flags with
  | nil => simp [startAxes, digits]
  | cons s ss ih =>
    cases flags with
    | nil => simp [startAxes, digits]
    | cons f fs =>
      obtain ⟨h1, h2, h3⟩ := ih fs
      cases f <;> simp [startAxes, digits, h1, h2, h3]

private theorem carry (q c m : Nat) (hm : 0 < m) :
    (q + c) / m = q / m + (q % m + c) / m ∧ (q + c) % m = (q % m + c) % m := by
  have hq := Nat.mod_add_div q m
  constructor
  · rw [show q + c = (q % m + c) + m * (q / m) by omega, Nat.add_mul_div_left _ _ hm]
    omega
  · rw [show q + c = (q % m + c) + m * (q / m) by omega, Nat.add_mul_mod_self_left]

theorem advance_reduced (shape : List Int) (flags : List Bool) (r k G : Nat)
    (h : ∀ s ∈ shape, 0 < s) :
    digits shape flags (r + G) k =
      ((advanceAxes true shape flags (digits shape flags r k).1 G).1,
        (digits shape flags r k).2.1 + (advanceAxes true shape flags (digits shape flags r k).1 G).2,
        (digits shape flags r k).2.2) := by
  induction shape generalizing flags with
  | nil => simp [advanceAxes, digits]
  | cons s ss ih =>
    cases flags with
    | nil => simp [advanceAxes, digits]
    | cons f fs =>
      have hs : 0 < s.toNat := by have := h s (by simp); omega
      have ih := ih fs (fun x hx => h x (by simp [hx]))
      cases f
      · simp only [digits, ih, Bool.false_eq_true, if_false, advanceAxes]
      · simp only [digits, ih, if_true, advanceAxes]
        generalize (advanceAxes true ss fs (digits ss fs r k).1 G).1 = is'
        generalize (advanceAxes true ss fs (digits ss fs r k).1 G).2 = c
        generalize (digits ss fs r k).2.1 = q
        obtain ⟨h1, h2⟩ := carry q c _ hs
        by_cases hc : c = 0
        · simp [hc]
        by_cases hlt : q % s.toNat + c < s.toNat
        · simp only [hc, hlt, if_false, if_true]
          rw [h1, h2, Nat.mod_eq_of_lt hlt, Nat.div_eq_of_lt hlt]
        · simp only [hc, hlt, if_false]
          rw [h1, h2]

theorem advance_kept (shape : List Int) (flags : List Bool) (r k G : Nat)
    (h : ∀ s ∈ shape, 0 < s) :
    digits shape flags r (k + G) =
      ((advanceAxes false shape flags (digits shape flags r k).1 G).1,
        (digits shape flags r k).2.1,
        (digits shape flags r k).2.2 +
          (advanceAxes false shape flags (digits shape flags r k).1 G).2) := by
  induction shape generalizing flags with
  | nil => simp [advanceAxes, digits]
  | cons s ss ih =>
    cases flags with
    | nil => simp [advanceAxes, digits]
    | cons f fs =>
      have hs : 0 < s.toNat := by have := h s (by simp); omega
      have ih := ih fs (fun x hx => h x (by simp [hx]))
      cases f
      · simp only [digits, ih, Bool.false_eq_true, if_false, if_true, advanceAxes]
        generalize (advanceAxes false ss fs (digits ss fs r k).1 G).1 = is'
        generalize (advanceAxes false ss fs (digits ss fs r k).1 G).2 = c
        generalize (digits ss fs r k).2.2 = q
        obtain ⟨h1, h2⟩ := carry q c _ hs
        by_cases hc : c = 0
        · simp [hc]
        by_cases hlt : q % s.toNat + c < s.toNat
        · simp only [hc, hlt, if_false, if_true]
          rw [h1, h2, Nat.mod_eq_of_lt hlt, Nat.div_eq_of_lt hlt]
        · simp only [hc, hlt, if_false]
          rw [h1, h2]
      · simp [digits, ih, advanceAxes]

/-! ## Which elements belong to a result -/

/-- The entries of the dimensions that are kept. -/
def keep {α : Type} : List Bool → List α → List α
  | f :: fs, x :: xs => if f then keep fs xs else x :: keep fs xs
  | _, _ => []

/-- Product of the sizes of the reduced dimensions. -/
def redSize : List Int → List Bool → Nat
  | s :: ss, f :: fs => if f then s.toNat * redSize ss fs else redSize ss fs
  | _, _ => 1

theorem digits_left (shape : List Int) (flags : List Bool) (r k : Nat) :
    (digits shape flags r k).2.1 = r / redSize shape flags := by
  induction shape generalizing flags with
  | nil => simp [digits, redSize]
  | cons s ss ih =>
    cases flags with
    | nil => simp [digits, redSize]
    | cons f fs =>
      cases f
      · simp [digits, redSize, ih]
      · simp only [digits, redSize, ih, if_true]
        rw [Nat.div_div_eq_div_mul, Nat.mul_comm]

theorem keep_digits (shape : List Int) (flags : List Bool) (r k : Nat)
    (hl : flags.length = shape.length) :
    keep flags (digits shape flags r k).1 = (startIndex (keep flags shape) k).1 ∧
    (digits shape flags r k).2.2 = (startIndex (keep flags shape) k).2 := by
  induction shape generalizing flags with
  | nil =>
    cases flags with
    | nil => simp [digits, keep, startIndex]
    | cons f fs => simp at hl
  | cons s ss ih =>
    cases flags with
    | nil => simp at hl
    | cons f fs =>
      obtain ⟨h1, h2⟩ := ih fs (by simpa using hl)
      cases f <;> simp [digits, keep, startIndex, h1, h2]

theorem digits_length (shape : List Int) (flags : List Bool) (r k : Nat)
    (hl : flags.length = shape.length) : (digits shape flags r k).1.length = shape.length := by
  induction shape generalizing flags with
  | nil => cases flags <;> simp [digits]
  | cons s ss ih =>
    cases flags with
    | nil => simp at hl
    | cons f fs => cases f <;> simp [digits, ih fs (by simpa using hl)]

theorem digits_valid (shape : List Int) (flags : List Bool) (r k : Nat)
    (hl : flags.length = shape.length) (h : ∀ s ∈ shape, 0 < s) :
    ValidIdx shape ((digits shape flags r k).1.map fun (i : Nat) => (i : Int)) := by
  induction shape generalizing flags with
  | nil => cases flags <;> simp [digits, ValidIdx] at *
  | cons s ss ih =>
    cases flags with
    | nil => simp at hl
    | cons f fs =>
      have hs : 0 < s := h s (by simp)
      have ih := ih fs (by simpa using hl) (fun x hx => h x (by simp [hx]))
      have hb : ∀ q : Nat, (0 : Int) ≤ ((q % s.toNat : Nat) : Int) ∧
          ((q % s.toNat : Nat) : Int) < s := by
        intro q
        have := Nat.mod_lt q (show 0 < s.toNat by omega)
        omega
      cases f
      · exact List.Forall₂.cons (hb _) ih
      · exact List.Forall₂.cons (hb _) ih

theorem digits_inj (shape : List Int) (flags : List Bool) (r r' k : Nat)
    (hl : flags.length = shape.length) (h : ∀ s ∈ shape, 0 < s)
    (he : (digits shape flags r k).1 = (digits shape flags r' k).1)
    (hq : (digits shape flags r k).2.1 = (digits shape flags r' k).2.1) : r = r' := by
  induction shape generalizing flags with
  | nil => cases flags <;> simpa [digits] using hq
  | cons s ss ih =>
    cases flags with
    | nil => simp at hl
    | cons f fs =>
      have ih := ih fs (by simpa using hl) (fun x hx => h x (by simp [hx]))
      cases f
      · simp only [digits, Bool.false_eq_true, if_false, List.cons.injEq] at he hq
        exact ih he.2 hq
      · simp only [digits, if_true, List.cons.injEq] at he hq
        refine ih he.2 ?_
        rw [← Nat.div_add_mod (digits ss fs r k).2.1 s.toNat, hq, he.1, Nat.div_add_mod]

theorem digits_surj (shape : List Int) (flags : List Bool) (k m : Nat) (j : List Int)
    (hl : flags.length = shape.length) (hj : ValidIdx shape j)
    (hk : keep flags j = indexOf (keep flags shape) k) :
    ∃ r, ((digits shape flags r k).1.map fun (i : Nat) => (i : Int)) = j ∧
      (digits shape flags r k).2.1 = m := by
  induction shape generalizing flags m j with
  | nil =>
    cases hj
    cases flags <;> exact ⟨m, by simp [digits]⟩
  | cons s ss ih =>
    cases flags with
    | nil => simp at hl
    | cons f fs =>
      cases hj with
      | @cons _ x _ js hx hjs =>
        have hpos : 0 < s.toNat := by omega
        cases f
        · simp only [keep, Bool.false_eq_true, if_false, indexOf, startIndex, List.map_cons,
            List.cons.injEq] at hk
          obtain ⟨r, h1, h2⟩ := ih fs m js (by simpa using hl) hjs hk.2
          refine ⟨r, ?_, by simpa [digits] using h2⟩
          simp only [digits, Bool.false_eq_true, if_false, List.map_cons, h1]
          rw [(keep_digits ss fs r k (by simpa using hl)).2, hk.1]
        · simp only [keep, if_true, indexOf] at hk
          obtain ⟨r, h1, h2⟩ := ih fs (s.toNat * m + x.toNat) js (by simpa using hl) hjs hk
          have hx' : x.toNat < s.toNat := by omega
          refine ⟨r, ?_, ?_⟩
          · simp only [digits, if_true, List.map_cons, h1, h2]
            rw [Nat.mul_add_mod, Nat.mod_eq_of_lt hx']
            congr 1
            omega
          · simp only [digits, if_true, h2]
            rw [Nat.mul_add_div hpos, Nat.div_eq_of_lt hx', Nat.add_zero]

/-! ## The flags -/

theorem axisFlags_length (a : Arr) (axes : List Int) :
    (axisFlags a axes).length = a.shape.length := by
  simp [axisFlags, Arr.shape]

theorem keep_map_range {α : Type} (p : Nat → Bool) (l : List α) (n : Nat) :
    keep ((List.range' n l.length).map p) l =
      ((l.zipIdx n).filter fun x => !p x.2).map Prod.fst := by
  induction l generalizing n with
  | nil => simp [keep]
  | cons x xs ih =>
    simp only [List.length_cons, List.range'_succ, List.map_cons, keep, List.zipIdx_cons,
      List.filter_cons]
    rw [ih]
    cases p n <;> simp

/-- The kept entries are what remains of a list without the reduced axes. -/
theorem keep_remaining {a : Arr} {axes : List Int} (l : List Int) (hl : l.length = a.dims.length) :
    keep (axisFlags a axes) l = Stat.remaining axes l := by
  unfold axisFlags
  rw [← hl, List.range_eq_range', keep_map_range]
  unfold Stat.remaining
  by_cases h : axes = []
  · rw [if_pos h]
    have : (l.zipIdx 0).filter (fun x => !decide (((x.2 : Nat) : Int) ∈ Stat.allAxes a axes)) = [] := by
      rw [List.filter_eq_nil_iff]
      rintro ⟨x, i⟩ hx
      have hi := List.snd_lt_add_of_mem_zipIdx hx
      simp only [Stat.allAxes, h, if_true, Bool.not_eq_true', decide_eq_false_iff_not, not_not,
        List.mem_map, List.mem_range]
      exact ⟨i, by simp only at hi; omega, rfl⟩
    rw [this]; rfl
  · rw [if_neg h]
    congr 1
    apply List.filter_congr
    rintro ⟨x, i⟩ _
    simp [Stat.allAxes, h]

/-- Number of elements per result. -/
theorem redSize_map (p : Nat → Bool) (shape : List Int) (n : Nat) :
    (redSize shape ((List.range' n shape.length).map p)) =
      (((List.range' n shape.length).filter p).map fun d => (shape.getD (d - n) 0).toNat).prod := by
  induction shape generalizing n with
  | nil => simp [redSize]
  | cons s ss ih =>
    simp only [List.length_cons, List.range'_succ, List.map_cons, redSize, List.filter_cons]
    have e : ((List.range' (n + 1) ss.length).filter p).map
        (fun d => ((s :: ss).getD (d - n) 0).toNat) =
        ((List.range' (n + 1) ss.length).filter p).map fun d => (ss.getD (d - (n + 1)) 0).toNat := by
      apply List.map_congr_left
      intro d hd
      have := (List.mem_range'_1.1 (List.mem_filter.1 hd).1).1
      rw [show d - n = (d - (n + 1)) + 1 by omega]
      simp
    cases hp : p n
    · simp only [Bool.false_eq_true, if_false, e, ih]
    · simp only [if_true, List.map_cons, List.prod_cons, e, ih, Nat.sub_self]
      rfl

theorem foldl_mul_prod (l : List Int) (x : Int) : l.foldl (· * ·) x = x * l.prod := by
  induction l generalizing x with
  | nil => simp
  | cons y ys ih => simp [ih, mul_assoc]

theorem count_redSize {a : Arr} {axes : List Int} (hax : Stat.GoodAxes a axes)
    (hpos : ∀ s ∈ a.shape, 0 < s) :
    (Stat.count a axes).toNat = redSize a.shape (axisFlags a axes) := by
  have hlen : a.shape.length = a.dims.length := by simp [Arr.shape]
  have h1 : redSize a.shape (axisFlags a axes) =
      (((List.range a.dims.length).filter fun (d : Nat) =>
        decide ((d : Int) ∈ Stat.allAxes a axes)).map fun d => (a.shape.getD d 0).toNat).prod := by
    have := redSize_map (fun (d : Nat) => decide ((d : Int) ∈ Stat.allAxes a axes)) a.shape 0
    rw [← List.range_eq_range', hlen] at this
    unfold axisFlags
    rw [this]
    simp
  have hall : (Stat.allAxes a axes).Nodup ∧ ∀ d ∈ Stat.allAxes a axes, 0 ≤ d ∧ d < a.dims.length := by
    unfold Stat.allAxes
    split
    · refine ⟨(List.nodup_range).map fun x y h => by simpa using h, ?_⟩
      intro d hd
      obtain ⟨k, hk, rfl⟩ := List.mem_map.1 hd
      have := List.mem_range.1 hk
      omega
    · exact hax
  have hperm : ((Stat.allAxes a axes).map Int.toNat).Perm
      ((List.range a.dims.length).filter fun (d : Nat) =>
        decide ((d : Int) ∈ Stat.allAxes a axes)) := by
    refine (List.perm_ext_iff_of_nodup ?_ (List.nodup_range.filter _)).2 ?_
    · refine List.Nodup.map_on ?_ hall.1
      intro x hx y hy h
      have := hall.2 x hx
      have := hall.2 y hy
      omega
    · intro d
      simp only [List.mem_map, List.mem_filter, List.mem_range, decide_eq_true_eq]
      constructor
      · rintro ⟨x, hx, rfl⟩
        have := hall.2 x hx
        refine ⟨by omega, ?_⟩
        rw [Int.toNat_of_nonneg this.1]; exact hx
      · rintro ⟨_, h⟩
        exact ⟨d, h, by simp⟩
  have h2 : (Stat.count a axes) =
      ((((Stat.allAxes a axes).map Int.toNat).map fun d => (a.shape.getD d 0)).prod) := by
    unfold Stat.count Stat.reducedCount
    rw [foldl_mul_prod, one_mul]
  rw [h1, h2, (hperm.map _).prod_eq]
  have h3 : ∀ l : List Nat, (∀ d ∈ l, d < a.dims.length) →
      ((l.map fun d => a.shape.getD d 0).prod).toNat = (l.map fun d => (a.shape.getD d 0).toNat).prod
        ∧ 0 ≤ (l.map fun d => a.shape.getD d 0).prod := by
    intro l hl
    induction l with
    | nil => simp
    | cons d ds ih =>
      obtain ⟨i1, i2⟩ := ih fun x hx => hl x (by simp [hx])
      have hd : 0 ≤ a.shape.getD d 0 := by
        have hd := hl d (by simp)
        have hd' : d < a.shape.length := by omega
        rw [List.getD_eq_getElem?_getD, List.getElem?_eq_getElem hd', Option.getD_some]
        exact (hpos _ (List.getElem_mem _)).le
      simp only [List.map_cons, List.prod_cons]
      exact ⟨by rw [Int.toNat_mul hd i2, i1], Int.mul_nonneg hd i2⟩
  exact (h3 _ fun d hd => List.mem_range.1 (List.mem_filter.1 hd).1).1

/-- The elements of result `k`, in the order of the element number. -/
def elements (a : Arr) (axes : List Int) (k : Nat) : List (List Int) :=
  (List.range (redSize a.shape (axisFlags a axes))).map fun r =>
    (digits a.shape (axisFlags a axes) r k).1.map fun (i : Nat) => (i : Int)

theorem indexOf_orUnit (l : List Int) (k : Nat) (h : l = [] → k = 0) :
    indexOf (Stat.orUnit 1 l) k = Stat.orUnit 0 (indexOf l k) := by
  unfold Stat.orUnit
  by_cases hl : l = []
  · subst hl; simp [indexOf, startIndex, Nat.mod_one]
  · rw [if_neg hl, if_neg]
    cases l with
    | nil => exact absurd rfl hl
    | cons x xs => simp [indexOf, startIndex]

/-- The elements the kernel visits for result `k` are exactly those of the specification, each
once. -/
theorem elements_enumerate {a : Arr} {axes : List Int} {k : Nat}
    (hpos : ∀ s ∈ a.shape, 0 < s) (hk : Stat.remaining axes a.shape = [] → k = 0) :
    Stat.Enumerates a.shape axes (indexOf (Stat.orUnit 1 (Stat.remaining axes a.shape)) k)
      (elements a axes k) := by
  have hl := axisFlags_length a axes
  have hlen : a.shape.length = a.dims.length := by simp [Arr.shape]
  have hR : 0 < redSize a.shape (axisFlags a axes) := by
    generalize axisFlags a axes = fs
    generalize a.shape = shape at hpos
    clear hl hk
    induction shape generalizing fs with
    | nil => simp [redSize]
    | cons s ss ih =>
      have hs := hpos s (by simp)
      have ih := fun fs => ih fs (fun x hx => hpos x (by simp [hx]))
      cases fs with
      | nil => simp [redSize]
      | cons f fs =>
        cases f
        · simpa [redSize] using ih fs
        · simp only [redSize, if_true]
          exact Nat.mul_pos (by omega) (ih fs)
  constructor
  · refine List.Nodup.map_on ?_ List.nodup_range
    intro r hr r' hr' he
    have hr := List.mem_range.1 hr
    have hr' := List.mem_range.1 hr'
    have he' : (digits a.shape (axisFlags a axes) r k).1 =
        (digits a.shape (axisFlags a axes) r' k).1 :=
      List.map_injective_iff.2 (fun (x y : Nat) h => by simpa using h) he
    refine digits_inj _ _ _ _ _ hl hpos he' ?_
    rw [digits_left, digits_left, Nat.div_eq_of_lt hr, Nat.div_eq_of_lt hr']
  · intro j
    have key : ∀ j : List Int, j.length = a.dims.length → 
        Stat.orUnit 0 (Stat.remaining axes j) =
          Stat.orUnit 0 (keep (axisFlags a axes) j) := by
      intro j hj; rw [keep_remaining j hj]
    rw [indexOf_orUnit _ _ hk, ← keep_remaining a.shape hlen]
    have hne : ∀ j : List Int, j.length = a.shape.length →
        (Stat.orUnit 0 (keep (axisFlags a axes) j) =
          Stat.orUnit 0 (indexOf (keep (axisFlags a axes) a.shape) k) ↔
        keep (axisFlags a axes) j = indexOf (keep (axisFlags a axes) a.shape) k) := by
      intro j hj
      have h1 : ∀ (fs : List Bool) (x y : List Int), x.length = y.length →
          (keep fs x).length = (keep fs y).length := by
        intro fs
        induction fs with
        | nil => intro x y _; simp [keep]
        | cons f fs ih =>
          intro x y hxy
          cases x <;> cases y <;> simp at hxy
          · rfl
          · cases f <;> simp [keep, ih _ _ hxy]
      have h2 : (indexOf (keep (axisFlags a axes) a.shape) k).length =
          (keep (axisFlags a axes) a.shape).length := by
        have : ∀ l : List Int, (startIndex l k).1.length = l.length := by
          intro l
          induction l with
          | nil => rfl
          | cons x xs ih => simp [startIndex, ih]
        simp [indexOf, this]
      have h3 := h1 (axisFlags a axes) j a.shape hj
      rw [← h2] at h3
      refine ⟨fun h => ?_, fun h => by rw [h]⟩
      unfold Stat.orUnit at h
      generalize keep (axisFlags a axes) j = u at h h3
      generalize indexOf (keep (axisFlags a axes) a.shape) k = v at h h3
      cases u <;> cases v <;> simp at h h3 ⊢
      exact h
    constructor
    · intro hj
      obtain ⟨r, hr, rfl⟩ := List.mem_map.1 hj
      have hv := digits_valid a.shape (axisFlags a axes) r k hl hpos
      refine ⟨hv, ?_⟩
      have hL := digits_length a.shape (axisFlags a axes) r k hl
      rw [key _ (by simpa [hlen] using hL), hne _ (by simpa using hL)]
      have := (keep_digits a.shape (axisFlags a axes) r k hl).1
      have hmap : ∀ (fs : List Bool) (l : List Nat),
          keep fs (l.map fun (i : Nat) => (i : Int)) = (keep fs l).map fun (i : Nat) => (i : Int) := by
        intro fs
        induction fs with
        | nil => intro l; simp [keep]
        | cons f fs ih =>
          intro l
          cases l with
          | nil => simp [keep]
          | cons x xs => cases f <;> simp [keep, ih]
      rw [hmap, this]; rfl
    · rintro ⟨hv, he⟩
      have hL : j.length = a.shape.length := by
        have := List.Forall₂.length_eq hv
        omega
      rw [key _ (by omega), hne _ hL] at he
      obtain ⟨r, h1, h2⟩ := digits_surj a.shape (axisFlags a axes) k 0 j hl hv he
      refine List.mem_map.2 ⟨r, List.mem_range.2 ?_, h1⟩
      rw [digits_left] at h2
      rcases Nat.div_eq_zero_iff.1 h2 with h | h
      · omega
      · exact h

end Bliss.Gpu
