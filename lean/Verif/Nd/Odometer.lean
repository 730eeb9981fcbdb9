import Verif.Nd.Model
import Mathlib.Tactic.Abel
import Mathlib.Tactic.Ring
import Mathlib.Tactic.ByContra
import Mathlib.Algebra.Module.Basic

/-! # The odometers enumerate all indices in row-major order -/

set_option linter.unusedSectionVars false

namespace Bliss.Nd

variable {P : Type} [AddCommGroup P]

/-- Number of index tuples of a loop nest. -/
def cells : List (LoopDim P) → Nat
  | [] => 1
  | d :: ds => d.size.toNat * cells ds

/-- The `k`-th index tuple in row-major order. -/
def unravel : List (LoopDim P) → Nat → List Int
  | [], _ => []
  | _ :: ds, k => ((k / cells ds : Nat) : Int) :: unravel ds (k % cells ds)

/-- Displacement of an index tuple. -/
def dot : List (LoopDim P) → List Int → P
  | d :: ds, i :: is => i • d.stride + dot ds is
  | _, _ => 0

/-- All-zero index. -/
def zeros : List (LoopDim P) → List Int
  | [] => []
  | _ :: ds => 0 :: zeros ds

/-- Rewinds of the scalar-style odometer. -/
def ResetA (ld : List (LoopDim P)) : Prop := ∀ d ∈ ld, 0 < d.size ∧ d.reset = (d.size - 1) • d.stride

/-- Rewinds of the binary odometer. -/
def ResetB (ld : List (LoopDim P)) : Prop := ∀ d ∈ ld, 0 < d.size ∧ d.reset = d.size • d.stride

theorem cells_pos {ld : List (LoopDim P)} (h : ∀ d ∈ ld, 0 < d.size) : 0 < cells ld := by
  induction ld with
  | nil => exact Nat.one_pos
  | cons d ds ih =>
    have h1 := h d (by simp)
    exact Nat.mul_pos (by omega) (ih fun x hx => h x (by simp [hx]))

theorem unravel_zero (ld : List (LoopDim P)) : unravel ld 0 = zeros ld := by
  induction ld with
  | nil => rfl
  | cons d ds ih => simp [unravel, zeros, ih]

theorem dot_zeros (ld : List (LoopDim P)) : dot ld (zeros ld) = 0 := by
  induction ld with
  | nil => rfl
  | cons d ds ih => simp [dot, zeros, ih]

theorem unravel_length (ld : List (LoopDim P)) (k : Nat) : (unravel ld k).length = ld.length := by
  induction ld generalizing k with
  | nil => rfl
  | cons d ds ih => simp [unravel, ih]

/-- One increment of the scalar-style odometer. -/
theorem odoA_step {ld : List (LoopDim P)} (h : ResetA ld) (base : P) {k : Nat}
    (hk : k < cells ld) :
    odoA ld (unravel ld k) (base + dot ld (unravel ld k)) =
      if k + 1 < cells ld then (unravel ld (k + 1), base + dot ld (unravel ld (k + 1)), false)
      else (zeros ld, base, true) := by
  induction ld generalizing base k with
  | nil =>
    simp only [cells] at hk
    have : k = 0 := by omega
    subst this
    simp [odoA, cells, zeros, dot, unravel]
  | cons d ds ih =>
    obtain ⟨hd, hreset⟩ := h d (by simp)
    have hds : ResetA ds := fun x hx => h x (by simp [hx])
    have hN : 0 < cells ds := cells_pos fun x hx => (hds x hx).1
    simp only [cells] at hk ⊢
    have hmod : k % cells ds < cells ds := Nat.mod_lt _ hN
    have hdiv : k / cells ds < d.size.toNat := by
      rw [Nat.div_lt_iff_lt_mul hN]; exact hk
    have hkeq : cells ds * (k / cells ds) + k % cells ds = k := Nat.div_add_mod _ _
    have e : base + dot (d :: ds) (unravel (d :: ds) k) =
        (base + ((k / cells ds : Nat) : Int) • d.stride) + dot ds (unravel ds (k % cells ds)) := by
      simp only [unravel, dot]; abel
    rw [e]
    simp only [unravel, odoA]
    rw [ih hds _ hmod]
    by_cases hc : k % cells ds + 1 < cells ds
    · have h1 : (k + 1) / cells ds = k / cells ds := by
        apply Nat.div_eq_of_lt_le
        · rw [Nat.mul_comm]; omega
        · rw [Nat.add_mul, Nat.one_mul, Nat.mul_comm]; omega
      have h2 : (k + 1) % cells ds = k % cells ds + 1 := by
        have := Nat.div_add_mod (k + 1) (cells ds)
        rw [h1] at this; omega
      have h3 : k + 1 < d.size.toNat * cells ds := by
        have : cells ds * (k / cells ds + 1) ≤ cells ds * d.size.toNat :=
          Nat.mul_le_mul_left _ hdiv
        rw [Nat.mul_comm (d.size.toNat)]
        rw [Nat.mul_add] at this
        omega
      simp only [hc, h3, if_true, Bool.false_eq_true, if_false, h1, h2, dot]
      congr 2
      abel
    · have hlast : k % cells ds + 1 = cells ds := by omega
      simp only [hc, if_false, if_true]
      have hk1 : k + 1 = cells ds * (k / cells ds + 1) := by rw [Nat.mul_add]; omega
      have h1 : (k + 1) / cells ds = k / cells ds + 1 := by
        rw [hk1, Nat.mul_div_cancel_left _ hN]
      have h2 : (k + 1) % cells ds = 0 := by rw [hk1, Nat.mul_mod_right]
      by_cases hw : ((k / cells ds : Nat) : Int) + 1 = d.size
      · have h3 : ¬ (k + 1 < d.size.toNat * cells ds) := by
          rw [hk1, Nat.mul_comm (d.size.toNat)]
          have : k / cells ds + 1 = d.size.toNat := by omega
          rw [this]; omega
        simp only [hw, ne_eq, not_true_eq_false, if_false, h3, zeros]
        congr 2
        rw [hreset]
        have : ((k / cells ds : Nat) : Int) = d.size - 1 := by omega
        rw [this]; abel
      · have h3 : k + 1 < d.size.toNat * cells ds := by
          rw [hk1, Nat.mul_comm (d.size.toNat)]
          exact Nat.mul_lt_mul_of_pos_left (by omega) hN
        simp only [hw, ne_eq, not_false_eq_true, if_true, h3, h1, h2, unravel_zero, dot, dot_zeros]
        congr 2
        push_cast
        rw [add_smul, one_smul]; abel

/-! ## Row-major bijection -/

/-- Index tuples of a loop nest. -/
def InBox : List (LoopDim P) → List Int → Prop
  | [], is => is = []
  | d :: ds, i :: is => 0 ≤ i ∧ i < d.size ∧ InBox ds is
  | _ :: _, [] => False

/-- Position of an index tuple in row-major order. -/
def ravel : List (LoopDim P) → List Int → Nat
  | _ :: ds, i :: is => i.toNat * cells ds + ravel ds is
  | _, _ => 0

theorem unravel_inBox {ld : List (LoopDim P)} {k : Nat}
    (hk : k < cells ld) : InBox ld (unravel ld k) := by
  induction ld generalizing k with
  | nil => rfl
  | cons d ds ih =>
    simp only [cells] at hk
    have hN : 0 < cells ds := by
      rcases Nat.eq_zero_or_pos (cells ds) with h0 | h0
      · rw [h0] at hk; simp at hk
      · exact h0
    have hdiv : k / cells ds < d.size.toNat := by
      rw [Nat.div_lt_iff_lt_mul hN]; exact hk
    exact ⟨Int.natCast_nonneg _, Int.lt_toNat.mp hdiv, ih (Nat.mod_lt _ hN)⟩

theorem ravel_lt {ld : List (LoopDim P)} {is : List Int} (h : InBox ld is) :
    ravel ld is < cells ld := by
  induction ld generalizing is with
  | nil => cases is <;> simp_all [InBox, ravel, cells]
  | cons d ds ih =>
    cases is with
    | nil => exact absurd h (by simp [InBox])
    | cons i is =>
      obtain ⟨h1, h2, h3⟩ := h
      have := ih h3
      simp only [ravel, cells]
      calc i.toNat * cells ds + ravel ds is < i.toNat * cells ds + cells ds := by omega
        _ = (i.toNat + 1) * cells ds := by rw [Nat.add_mul, Nat.one_mul]
        _ ≤ d.size.toNat * cells ds := Nat.mul_le_mul_right _ (by omega)

theorem unravel_ravel {ld : List (LoopDim P)} {is : List Int} (h : InBox ld is) :
    unravel ld (ravel ld is) = is := by
  induction ld generalizing is with
  | nil => cases is <;> simp_all [InBox, unravel]
  | cons d ds ih =>
    cases is with
    | nil => exact absurd h (by simp [InBox])
    | cons i is =>
      obtain ⟨h1, h2, h3⟩ := h
      have hlt := ravel_lt h3
      have hN : 0 < cells ds := by omega
      simp only [ravel, unravel]
      rw [Nat.mul_comm, Nat.mul_add_div hN, Nat.mul_add_mod, Nat.mod_eq_of_lt hlt,
        Nat.div_eq_of_lt hlt, ih h3]
      simp; omega

theorem ravel_unravel {ld : List (LoopDim P)} {k : Nat} (hk : k < cells ld) :
    ravel ld (unravel ld k) = k := by
  induction ld generalizing k with
  | nil => simp [cells] at hk; simp [ravel, hk]
  | cons d ds ih =>
    simp only [cells] at hk
    have hN : 0 < cells ds := by
      rcases Nat.eq_zero_or_pos (cells ds) with h0 | h0
      · rw [h0] at hk; simp at hk
      · exact h0
    simp only [unravel, ravel, Int.toNat_natCast, ih (Nat.mod_lt _ hN)]
    rw [Nat.mul_comm]; exact Nat.div_add_mod _ _

theorem unravel_inj {ld : List (LoopDim P)} {j k : Nat} (hj : j < cells ld) (hk : k < cells ld)
    (h : unravel ld j = unravel ld k) : j = k := by
  rw [← ravel_unravel hj, ← ravel_unravel hk, h]

/-! ## The chunked odometer -/

theorem unravel_getLastD_single (d : LoopDim P) (k : Nat) : unravel [d] k = [(k : Int)] := by
  simp [unravel, cells]

theorem cells_cons_cons (d e : LoopDim P) (ds : List (LoopDim P)) :
    cells (d :: e :: ds) = d.size.toNat * cells (e :: ds) := rfl

/-- Moving `j` places inside the last dimension. -/
theorem unravel_add_last {ld : List (LoopDim P)} {l : LoopDim P} (hl : ld.getLast? = some l)
    (hpos : ∀ d ∈ ld, 0 < d.size) {k j : Nat} (hk : k < cells ld)
    (hj : (unravel ld k).getLastD 0 + j < l.size) (base : P) :
    k + j < cells ld ∧ (unravel ld (k + j)).getLastD 0 = (unravel ld k).getLastD 0 + j ∧
      base + dot ld (unravel ld (k + j)) = base + dot ld (unravel ld k) + (j : Int) • l.stride := by
  induction ld generalizing k base with
  | nil => simp at hl
  | cons d ds ih =>
    cases ds with
    | nil =>
      simp only [List.getLast?_singleton, Option.some.injEq] at hl
      subst hl
      simp only [unravel_getLastD_single, List.getLastD_cons, List.getLastD_nil] at hj ⊢
      simp only [cells, Nat.mul_one] at hk ⊢
      refine ⟨by omega, by push_cast; rfl, ?_⟩
      simp only [dot]
      push_cast
      rw [add_smul]; abel
    | cons e ds =>
      have hl' : (e :: ds).getLast? = some l := by simpa [List.getLast?_cons_cons] using hl
      have hpos' : ∀ d ∈ e :: ds, 0 < d.size := fun x hx => hpos x (by simp [hx])
      have hN : 0 < cells (e :: ds) := cells_pos hpos'
      have hmod : k % cells (e :: ds) < cells (e :: ds) := Nat.mod_lt _ hN
      have hlast : ∀ m, (unravel (d :: e :: ds) m).getLastD 0 =
          (unravel (e :: ds) (m % cells (e :: ds))).getLastD 0 := by
        intro m; simp [unravel]
      rw [hlast] at hj
      obtain ⟨h1, h2, h3⟩ := ih hl' hpos' hmod hj
        (base + ((k / cells (e :: ds) : Nat) : Int) • d.stride)
      have hkeq : cells (e :: ds) * (k / cells (e :: ds)) + k % cells (e :: ds) = k :=
        Nat.div_add_mod _ _
      have hd : (k + j) / cells (e :: ds) = k / cells (e :: ds) := by
        apply Nat.div_eq_of_lt_le
        · rw [Nat.mul_comm]; omega
        · rw [Nat.add_mul, Nat.one_mul, Nat.mul_comm]; omega
      have hm : (k + j) % cells (e :: ds) = k % cells (e :: ds) + j := by
        have := Nat.div_add_mod (k + j) (cells (e :: ds))
        rw [hd] at this; omega
      refine ⟨?_, ?_, ?_⟩
      · rw [cells_cons_cons] at hk ⊢
        have hdiv : k / cells (e :: ds) < d.size.toNat := by
          rw [Nat.div_lt_iff_lt_mul hN]; exact hk
        have : cells (e :: ds) * (k / cells (e :: ds) + 1) ≤ cells (e :: ds) * d.size.toNat :=
          Nat.mul_le_mul_left _ hdiv
        rw [Nat.mul_comm (d.size.toNat)]
        rw [Nat.mul_add] at this
        omega
      · rw [hlast, hlast, hm, h2]
      · have e1 : ∀ m, dot (d :: e :: ds) (unravel (d :: e :: ds) m) =
            ((m / cells (e :: ds) : Nat) : Int) • d.stride +
              dot (e :: ds) (unravel (e :: ds) (m % cells (e :: ds))) := fun m => rfl
        rw [e1, e1, hd, hm, ← add_assoc, h3]; abel

/-- One advance of the binary odometer by `c ≥ 1` places that stay in the last dimension. -/
theorem odoB_step {ld : List (LoopDim P)} (h : ResetB ld) {l : LoopDim P}
    (hl : ld.getLast? = some l) (base : P) {k c : Nat} (hk : k < cells ld) (hc : 1 ≤ c)
    (hcl : (unravel ld k).getLastD 0 + c ≤ l.size) :
    k + c ≤ cells ld ∧
    odoB (c : Int) ld (unravel ld k) (base + dot ld (unravel ld k)) =
      if k + c < cells ld then (unravel ld (k + c), base + dot ld (unravel ld (k + c)), false)
      else (zeros ld, base, true) := by
  induction ld generalizing base k with
  | nil => simp at hl
  | cons d ds ih =>
    cases ds with
    | nil =>
      simp only [List.getLast?_singleton, Option.some.injEq] at hl
      subst hl
      obtain ⟨hd, hreset⟩ := h d (by simp)
      simp only [unravel_getLastD_single, List.getLastD_cons, List.getLastD_nil] at hcl ⊢
      simp only [cells, Nat.mul_one] at hk ⊢
      refine ⟨by omega, ?_⟩
      simp only [odoB, dot, zeros]
      by_cases hw : (k : Int) + c < d.size
      · have : k + c < d.size.toNat := by omega
        simp only [hw, this, if_true]
        push_cast
        congr 2
        rw [add_smul]; abel
      · have h2 : ¬ (k + c < d.size.toNat) := by omega
        have h3 : (k : Int) + c = d.size := by omega
        simp only [hw, h2, if_false]
        congr 2
        rw [hreset, ← h3, add_smul]; abel
    | cons e ds =>
      obtain ⟨hd, hreset⟩ := h d (by simp)
      have hds : ResetB (e :: ds) := fun x hx => h x (by simp [hx])
      have hl' : (e :: ds).getLast? = some l := by simpa [List.getLast?_cons_cons] using hl
      have hN : 0 < cells (e :: ds) := cells_pos fun x hx => (hds x hx).1
      have hmod : k % cells (e :: ds) < cells (e :: ds) := Nat.mod_lt _ hN
      have hlast : ∀ m, (unravel (d :: e :: ds) m).getLastD 0 =
          (unravel (e :: ds) (m % cells (e :: ds))).getLastD 0 := by
        intro m; simp [unravel]
      rw [hlast] at hcl
      obtain ⟨h1, h2⟩ := ih hds hl' (base + ((k / cells (e :: ds) : Nat) : Int) • d.stride) hmod hcl
      have hkeq : cells (e :: ds) * (k / cells (e :: ds)) + k % cells (e :: ds) = k :=
        Nat.div_add_mod _ _
      rw [cells_cons_cons] at hk ⊢
      have hdiv : k / cells (e :: ds) < d.size.toNat := by
        rw [Nat.div_lt_iff_lt_mul hN]; exact hk
      have hbound : cells (e :: ds) * (k / cells (e :: ds) + 1) ≤ cells (e :: ds) * d.size.toNat :=
        Nat.mul_le_mul_left _ hdiv
      rw [Nat.mul_add, Nat.mul_one] at hbound
      refine ⟨by rw [Nat.mul_comm (d.size.toNat)]; omega, ?_⟩
      have e1 : base + dot (d :: e :: ds) (unravel (d :: e :: ds) k) =
          (base + ((k / cells (e :: ds) : Nat) : Int) • d.stride) +
            dot (e :: ds) (unravel (e :: ds) (k % cells (e :: ds))) := by
        show base + (_ + _) = _
        rw [add_assoc]
      have e2 : odoB (c : Int) (d :: e :: ds) (unravel (d :: e :: ds) k)
          (base + dot (d :: e :: ds) (unravel (d :: e :: ds) k)) =
          (let r := odoB (c : Int) (e :: ds) (unravel (e :: ds) (k % cells (e :: ds)))
            (base + dot (d :: e :: ds) (unravel (d :: e :: ds) k))
           if r.2.2 then
             if ((k / cells (e :: ds) : Nat) : Int) + 1 < d.size then
               ((((k / cells (e :: ds) : Nat) : Int) + 1) :: r.1, r.2.1 + d.stride, false)
             else (0 :: r.1, r.2.1 + d.stride - d.reset, true)
           else (((k / cells (e :: ds) : Nat) : Int) :: r.1, r.2.1, false)) := rfl
      rw [e2, e1]
      simp only [h2]
      by_cases hc' : k % cells (e :: ds) + c < cells (e :: ds)
      · have hd' : (k + c) / cells (e :: ds) = k / cells (e :: ds) := by
          apply Nat.div_eq_of_lt_le
          · rw [Nat.mul_comm]; omega
          · rw [Nat.add_mul, Nat.one_mul, Nat.mul_comm]; omega
        have hm : (k + c) % cells (e :: ds) = k % cells (e :: ds) + c := by
          have := Nat.div_add_mod (k + c) (cells (e :: ds))
          rw [hd'] at this; omega
        have h3 : k + c < d.size.toNat * cells (e :: ds) := by
          rw [Nat.mul_comm (d.size.toNat)]; omega
        have e3 : unravel (d :: e :: ds) (k + c) =
            (((k + c) / cells (e :: ds) : Nat) : Int) :: unravel (e :: ds) ((k + c) % cells (e :: ds)) := rfl
        simp only [hc', h3, if_true, Bool.false_eq_true, if_false, e3, hd', hm]
        congr 2
        simp only [dot]; abel
      · have hlast' : k % cells (e :: ds) + c = cells (e :: ds) := by omega
        simp only [hc', if_false, if_true]
        have hk1 : k + c = cells (e :: ds) * (k / cells (e :: ds) + 1) := by rw [Nat.mul_add]; omega
        have h1' : (k + c) / cells (e :: ds) = k / cells (e :: ds) + 1 := by
          rw [hk1, Nat.mul_div_cancel_left _ hN]
        have h2' : (k + c) % cells (e :: ds) = 0 := by rw [hk1, Nat.mul_mod_right]
        have e3 : unravel (d :: e :: ds) (k + c) =
            (((k + c) / cells (e :: ds) : Nat) : Int) :: unravel (e :: ds) ((k + c) % cells (e :: ds)) := rfl
        have hdiv' : ((k / cells (e :: ds) : Nat) : Int) < d.size := Int.lt_toNat.mp hdiv
        by_cases hw : ((k / cells (e :: ds) : Nat) : Int) + 1 < d.size
        · have h3 : k + c < d.size.toNat * cells (e :: ds) := by
            rw [hk1, Nat.mul_comm (d.size.toNat)]
            refine Nat.mul_lt_mul_of_pos_left ?_ hN
            rw [Int.lt_toNat]; push_cast; exact hw
          simp only [hw, if_true, h3, e3, h1', h2', unravel_zero]
          congr 2
          simp only [dot, dot_zeros]
          push_cast
          rw [add_smul, one_smul]; abel
        · have hq : ((k / cells (e :: ds) : Nat) : Int) + 1 = d.size := by omega
          have h3 : ¬ (k + c < d.size.toNat * cells (e :: ds)) := by
            rw [hk1, Nat.mul_comm (d.size.toNat)]
            have : k / cells (e :: ds) + 1 = d.size.toNat := by
              have h9 := congrArg Int.toNat hq
              rw [← h9]
              generalize k / cells (e :: ds) = q
              omega
            rw [this]; omega
          simp only [hw, if_false, h3, zeros]
          congr 2
          rw [hreset, ← hq, add_smul, one_smul]; abel

end Bliss.Nd
