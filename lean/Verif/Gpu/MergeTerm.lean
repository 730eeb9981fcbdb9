import Verif.Gpu.Merge
import Mathlib.Algebra.BigOperators.Group.Finset.Basic
import Mathlib.Algebra.Order.BigOperators.Group.Finset
import Mathlib.Data.Fintype.Basic
import Mathlib.Data.Fintype.BigOperators

/-!
# The lock-free merge terminates

With coherent reads (`stale = false`) every execution of `merge_labels` is finite, whatever the
order of the steps: a failed compare-and-swap means another thread has joined two protohits,
which happens at most once per protohit.
-/

namespace Bliss.Gpu

section
variable {F : Type} [LinearOrder F] {ι : Type} {V : Int → Prop} {s0 : Buf (Slot F)}
  {work : ι → List (Int × List Int)}

open Classical in
/-- Number of labels in use that are preferred to label `i`. -/
noncomputable def rank (hfin : {i | V i}.Finite) (s0 : Buf (Slot F)) (i : Int) : Nat :=
  (hfin.toFinset.filter fun j => ∃ a b, s0 i = some a ∧ s0 j = some b ∧ Better b a).card

open Classical in
/-- Number of labels in use that are still valid. -/
noncomputable def live (hfin : {i | V i}.Finite) (s : Buf (Slot F)) : Nat :=
  (hfin.toFinset.filter fun j => par s j = 0).card

/-- Size of the work not started. -/
def wsize (w : List (Int × List Int)) : Nat := (w.map fun x => 1 + x.2.length).sum

/-- Work left, including the pixel and the neighbour in progress. -/
def wleft : MState → Nat
  | .done => 0
  | .chase _ qs w | .chaseTo _ qs w => 1 + qs.length + wsize w
  | .pix _ _ qs w | .pixTo _ _ qs w | .nbr _ _ qs w | .nbrTo _ _ qs w | .cas _ _ qs w =>
    1 + qs.length + wsize w

/-- Improvements the two chases can still make. -/
noncomputable def climb (hfin : {i | V i}.Finite) (s0 : Buf (Slot F)) : MState → Nat
  | .done => 0
  | .chase p _ _ | .chaseTo p _ _ => rank hfin s0 p
  | .pix p q _ _ | .pixTo p q _ _ | .nbr p q _ _ | .nbrTo p q _ _ | .cas p q _ _ =>
    rank hfin s0 p + rank hfin s0 q

/-- Position in the loop, given which of the two roots are still valid. -/
def phase (s : Buf (Slot F)) : MState → Nat
  | .done => 0
  | .chase _ _ _ => 2
  | .chaseTo _ _ _ => 1
  | .pix p q _ _ => if par s p = 0 ∧ par s q = 0 then 3 else 5
  | .pixTo _ _ _ _ => 4
  | .nbr p q _ _ => if par s q = 0 then (if par s p = 0 then 2 else 7) else 4
  | .nbrTo _ _ _ _ => 3
  | .cas p q _ _ => if par s p = 0 ∧ par s q = 0 then 1 else 6

theorem phase_le (s : Buf (Slot F)) (l : MState) : phase s l ≤ 7 := by
  cases l <;> simp only [phase] <;> (try split) <;> (try split) <;> omega

/-- Measure of one thread; `M` bounds the number of labels in use. -/
noncomputable def tmeas (hfin : {i | V i}.Finite) (s0 s : Buf (Slot F)) (l : MState) : Nat :=
  (16 * hfin.toFinset.card + 8) * wleft l + 8 * climb hfin s0 l + phase s l

theorem rank_le (hfin : {i | V i}.Finite) (s0 : Buf (Slot F)) (i : Int) :
    rank hfin s0 i ≤ hfin.toFinset.card := by
  classical exact Finset.card_filter_le _ _

theorem climb_le (hfin : {i | V i}.Finite) (s0 : Buf (Slot F)) (l : MState) :
    climb hfin s0 l ≤ 2 * hfin.toFinset.card := by
  have := rank_le hfin s0
  cases l <;> simp only [climb] <;>
    (first | omega | (rename_i p _ _; have := this p; omega) |
      (rename_i p q _ _; have h1 := this p; have h2 := this q; omega))

theorem rank_lt (hfin : {i | V i}.Finite) {i j : Int} {a b : Slot F} (hj : V j)
    (ha : s0 i = some a) (hb : s0 j = some b) (hB : Better b a) :
    rank hfin s0 j < rank hfin s0 i := by
  classical
  refine Finset.card_lt_card ⟨fun k hk => ?_, fun hsub => ?_⟩
  · simp only [Finset.mem_filter, Set.Finite.mem_toFinset] at hk ⊢
    obtain ⟨hk, c, d, hc, hd, hB'⟩ := hk
    obtain rfl := Option.some.inj (hb.symm.trans hc)
    exact ⟨hk, a, d, ha, hd, hB'.trans hB⟩
  · have : j ∈ hfin.toFinset.filter fun j =>
        ∃ a b, s0 i = some a ∧ s0 j = some b ∧ Better b a := by
      simp only [Finset.mem_filter, Set.Finite.mem_toFinset]
      exact ⟨hj, a, b, ha, hb, hB⟩
    have := hsub this
    simp only [Finset.mem_filter, Set.Finite.mem_toFinset] at this
    obtain ⟨_, c, d, hc, hd, hB'⟩ := this
    obtain rfl := Option.some.inj (hc.symm.trans hd)
    exact hB'.irrefl

theorem wleft_resume (w : List (Int × List Int)) : wleft (resume w) = wsize w := by
  cases w with
  | nil => rfl
  | cons x w => obtain ⟨p, qs⟩ := x; simp [resume, wleft, wsize]

theorem wleft_next (p : Int) (qs : List Int) (w : List (Int × List Int)) :
    wleft (nextNbr p qs w) = qs.length + wsize w := by
  cases qs with
  | nil => simp [nextNbr, wleft_resume]
  | cons q qs => simp [nextNbr, wleft]; omega

/-- A step that finishes a neighbour or a pixel decreases the thread's measure. -/
theorem tmeas_next (hfin : {i | V i}.Finite) (s s' : Buf (Slot F)) (l : MState) (p : Int)
    (qs : List Int) (w : List (Int × List Int)) (hl : wleft l = 1 + qs.length + wsize w) :
    tmeas hfin s0 s' (nextNbr p qs w) < tmeas hfin s0 s l := by
  have h1 := phase_le s' (nextNbr p qs w)
  have h2 := climb_le hfin s0 (nextNbr p qs w)
  have h3 := wleft_next p qs w
  simp only [tmeas, hl, h3]
  have : (16 * hfin.toFinset.card + 8) * (1 + qs.length + wsize w) =
      (16 * hfin.toFinset.card + 8) * (qs.length + wsize w) + (16 * hfin.toFinset.card + 8) := by
    ring
  omega

variable [DecidableEq ι] [Fintype ι]

/-- Measure of the whole launch. -/
noncomputable def mmeas (hfin : {i | V i}.Finite) (s0 : Buf (Slot F))
    (x : (ι → MState) × Buf (Slot F)) : Nat :=
  (7 * Fintype.card ι + 1) * live hfin x.2 + ∑ i, tmeas hfin s0 x.2 (x.1 i)

/-- Steps without a write decrease the measure when the thread's own measure decreases. -/
theorem mmeas_local (hfin : {i | V i}.Finite) {ls : ι → MState} {s : Buf (Slot F)} {i : ι}
    {l' : MState} (h : tmeas hfin s0 s l' < tmeas hfin s0 s (ls i)) :
    mmeas hfin s0 (Function.update ls i l', s) < mmeas hfin s0 (ls, s) := by
  simp only [mmeas]
  refine Nat.add_lt_add_left ?_ _
  refine Finset.sum_lt_sum (fun j _ => ?_) ⟨i, Finset.mem_univ i, by simpa using h⟩
  by_cases hj : j = i
  · subst hj; simpa using h.le
  · simp [Function.update_of_ne hj]

/-- A write joins two protohits: one fewer is valid. -/
theorem mmeas_write (hfin : {i | V i}.Finite) {ls : ι → MState} {s s' : Buf (Slot F)} {i : ι}
    {l' : MState} (hlive : live hfin s' < live hfin s)
    (h : tmeas hfin s0 s' l' < tmeas hfin s0 s (ls i)) :
    mmeas hfin s0 (Function.update ls i l', s') < mmeas hfin s0 (ls, s) := by
  have hsum : ∑ j, tmeas hfin s0 s' (Function.update ls i l' j) ≤
      ∑ j, (tmeas hfin s0 s (ls j) + 7) := by
    refine Finset.sum_le_sum fun j _ => ?_
    by_cases hj : j = i
    · subst hj; simp only [Function.update_self]; omega
    · rw [Function.update_of_ne hj]
      have := phase_le s' (ls j)
      simp only [tmeas]; omega
  rw [Finset.sum_add_distrib, Finset.sum_const, Finset.card_univ, nsmul_eq_mul] at hsum
  simp only [Nat.cast_id] at hsum
  simp only [mmeas]
  have : (7 * Fintype.card ι + 1) * live hfin s' + (7 * Fintype.card ι + 1) ≤
      (7 * Fintype.card ι + 1) * live hfin s := by
    calc _ = (7 * Fintype.card ι + 1) * (live hfin s' + 1) := by ring
      _ ≤ _ := Nat.mul_le_mul_left _ hlive
  omega

theorem mmeas_step (hr : MergeReady V s0 work) (hfin : {i | V i}.Finite)
    {x y : (ι → MState) × Buf (Slot F)} (hI : MInv V s0 (Linked work) x.2)
    (hT : ∀ i, MAssert V work i (x.1 i) x.2) (h : SysStep (MergeStep false) x y) :
    mmeas hfin s0 y < mmeas hfin s0 x := by
  obtain ⟨ls, s⟩ := x
  obtain ⟨ls', s'⟩ := y
  obtain ⟨i, l', hk, he⟩ := h
  simp only at he hk hI hT
  subst he
  have hTi := hT i
  obtain ⟨hL, hS, -⟩ := hTi
  -- a hop improves the rank
  have hop : ∀ {p : Int} {a : Slot F}, V p → s p = some a → a.inv ≠ 0 →
      rank hfin s0 a.inv < rank hfin s0 p := by
    intro p a hp h ha
    obtain ⟨h1, h2, c, d, hc, hd, hB⟩ := hI.hop_better hr (hI.par_cases hr hp h ha).2.2
    exact rank_lt hfin h1 hc hd hB
  have hpar : ∀ {p : Int} {a : Slot F}, s p = some a → par s p = a.inv := fun h => by simp [par, h]
  generalize hl : ls i = l at hk hL hS
  cases hk with
  | chaseRoot h h0 => exact mmeas_local hfin (hl ▸ tmeas_next hfin s s _ _ _ _ rfl)
  | chaseUp h h0 =>
    refine mmeas_local hfin ?_
    rw [hl]; simp [tmeas, wleft, climb, phase]
  | chaseTo h =>
    refine mmeas_local hfin ?_
    have := hop hL.1 h (by simpa [MSet, par, h] using hS)
    rw [hl]; simp only [tmeas, wleft, climb, phase]; omega
  | pixRoot h h0 =>
    refine mmeas_local hfin ?_
    have h0 := h0.resolve_left (by simp)
    rw [hl]; simp only [tmeas, wleft, climb, phase, hpar h, h0, true_and, if_true]
    split <;> omega
  | pixUp h h0 =>
    refine mmeas_local hfin ?_
    rw [hl]; simp [tmeas, wleft, climb, phase, hpar h, h0]
  | pixTo h =>
    refine mmeas_local hfin ?_
    have := hop hL.1 h (by simpa [MSet, par, h] using hS)
    rw [hl]; simp only [tmeas, wleft, climb, phase]; split <;> omega
  | nbrSame h h0 he => exact mmeas_local hfin (hl ▸ tmeas_next hfin s s _ _ _ _ rfl)
  | nbrRoot h h0 he =>
    refine mmeas_local hfin ?_
    have h0 := h0.resolve_left (by simp)
    rw [hl]; simp only [tmeas, wleft, climb, phase, hpar h, h0, and_true, if_true]
    split <;> omega
  | nbrUp h h0 =>
    refine mmeas_local hfin ?_
    rw [hl]; simp [tmeas, wleft, climb, phase, hpar h, h0]
  | nbrTo h =>
    refine mmeas_local hfin ?_
    have := hop hL.2.1 h (by simpa [MSet, par, h] using hS)
    rw [hl]; simp only [tmeas, wleft, climb, phase]
    split
    · split <;> omega
    · omega
  | @swapped p q qs w _ a b c hp hq hl' h0 =>
    refine mmeas_write hfin ?_ (hl ▸ tmeas_next hfin s _ _ _ _ _ rfl)
    have hcase : casPair a b p q = (q, p) ∨ casPair a b p q = (p, q) := by
      unfold casPair; split <;> (try split) <;> (try split) <;> simp
    have hV : V (casPair a b p q).1 ∧ (casPair a b p q).2 ≠ 0 := by
      rcases hcase with h | h <;> rw [h]
      · exact ⟨hL.2.1, hr.pos _ hL.1⟩
      · exact ⟨hL.1, hr.pos _ hL.2.1⟩
    generalize (casPair a b p q).1 = x at hV hl'
    generalize (casPair a b p q).2 = y at hV
    refine Finset.card_lt_card ⟨fun k hk => ?_, fun hsub => ?_⟩
    · simp only [Finset.mem_filter, Set.Finite.mem_toFinset, par_setInv hl'] at hk ⊢
      refine ⟨hk.1, ?_⟩
      have h2 := hk.2
      split at h2
      · exact absurd h2 hV.2
      · exact h2
    · have hx : x ∈ hfin.toFinset.filter fun j => par s j = 0 := by
        simp only [Finset.mem_filter, Set.Finite.mem_toFinset]
        exact ⟨hV.1, by simp [par, hl', h0]⟩
      have hx' := hsub hx
      simp only [Finset.mem_filter, Set.Finite.mem_toFinset, par_setInv hl', if_true] at hx'
      exact hV.2 hx'.2
  | @failed p q qs w _ a b c hp hq hl' h0 =>
    refine mmeas_local hfin ?_
    have hne : ¬ (par s p = 0 ∧ par s q = 0) := by
      have hcase : casPair a b p q = (q, p) ∨ casPair a b p q = (p, q) := by
        unfold casPair; split <;> (try split) <;> (try split) <;> simp
      rintro ⟨h1, h2⟩
      rcases hcase with h | h <;> rw [h] at hl'
      · exact h0 (by simpa [par, hl'] using h2)
      · exact h0 (by simpa [par, hl'] using h1)
    rw [hl]; simp [tmeas, wleft, climb, phase, hne]

/-- Every execution of the merge is finite. -/
theorem merge_terminates (hr : MergeReady V s0 work) (hfin : {i | V i}.Finite) :
    Terminates (MergeStep (F := F) false) (mergeInit work) s0 := by
  refine terminates_of_measure
    (fun x => MInv V s0 (Linked work) x.2 ∧ ∀ i, MAssert V work i (x.1 i) x.2)
    (mmeas hfin s0) (merge_start hr) fun x y hx hxy => ⟨?_, mmeas_step hr hfin hx.1 hx.2 hxy⟩
  obtain ⟨ls, s⟩ := x
  obtain ⟨ls', s'⟩ := y
  obtain ⟨i, l', hk, he⟩ := hxy
  simp only at he hk hx
  subst he
  obtain ⟨h1, h2, h3⟩ := merge_step hr hx.1 (hx.2 i) hk
  refine ⟨h1, fun j => ?_⟩
  by_cases hj : j = i
  · subst hj; simpa using h2
  · simp only [Function.update_of_ne hj]
    exact merge_stable (i := i) (fun l => set_mono h3 l) h3 (hx.2 j)

omit [DecidableEq ι] [Fintype ι] in
/-- A thread that has not returned can take a step. -/
theorem merge_progress {stale : Bool} {l : MState} (s : Buf (Slot F)) (hl : l ≠ .done) :
    ∃ r, MergeStep stale l s r := by
  have hread : ∀ p, s p = none ∨ (∃ a, s p = some a ∧ a.inv = 0) ∨ (∃ a, s p = some a ∧ a.inv ≠ 0) := by
    intro p
    cases h : s p with
    | none => exact .inl rfl
    | some a =>
      by_cases h0 : a.inv = 0
      · exact .inr (.inl ⟨a, rfl, h0⟩)
      · exact .inr (.inr ⟨a, rfl, h0⟩)
  cases l with
  | done => exact absurd rfl hl
  | chase p qs w =>
    rcases hread p with h | ⟨a, h, h0⟩ | ⟨a, h, h0⟩
    · exact ⟨_, .chaseBad h⟩
    · exact ⟨_, .chaseRoot h (.inr h0)⟩
    · exact ⟨_, .chaseUp h h0⟩
  | chaseTo p qs w =>
    rcases hread p with h | ⟨a, h, h0⟩ | ⟨a, h, h0⟩
    · exact ⟨_, .chaseToBad h⟩
    · exact ⟨_, .chaseTo h⟩
    · exact ⟨_, .chaseTo h⟩
  | pix p q qs w =>
    rcases hread p with h | ⟨a, h, h0⟩ | ⟨a, h, h0⟩
    · exact ⟨_, .pixBad h⟩
    · exact ⟨_, .pixRoot h (.inr h0)⟩
    · exact ⟨_, .pixUp h h0⟩
  | pixTo p q qs w =>
    rcases hread p with h | ⟨a, h, h0⟩ | ⟨a, h, h0⟩
    · exact ⟨_, .pixToBad h⟩
    · exact ⟨_, .pixTo h⟩
    · exact ⟨_, .pixTo h⟩
  | nbr p q qs w =>
    rcases hread q with h | ⟨a, h, h0⟩ | ⟨a, h, h0⟩
    · exact ⟨_, .nbrBad h⟩
    · by_cases he : p = q
      · exact ⟨_, .nbrSame h (.inr h0) he⟩
      · exact ⟨_, .nbrRoot h (.inr h0) he⟩
    · exact ⟨_, .nbrUp h h0⟩
  | nbrTo p q qs w =>
    rcases hread q with h | ⟨a, h, h0⟩ | ⟨a, h, h0⟩
    · exact ⟨_, .nbrToBad h⟩
    · exact ⟨_, .nbrTo h⟩
    · exact ⟨_, .nbrTo h⟩
  | cas p q qs w =>
    cases hp : s p with
    | none => exact ⟨_, .casBad (.inl hp)⟩
    | some a =>
      cases hq : s q with
      | none => exact ⟨_, .casBad (.inr hq)⟩
      | some b =>
        have hcase : casPair a b p q = (q, p) ∨ casPair a b p q = (p, q) := by
          unfold casPair; split <;> (try split) <;> (try split) <;> simp
        obtain ⟨c, hc⟩ : ∃ c, s (casPair a b p q).1 = some c := by
          rcases hcase with h | h <;> rw [h]
          · exact ⟨b, hq⟩
          · exact ⟨a, hp⟩
        by_cases h0 : c.inv = 0
        · exact ⟨_, .swapped hp hq hc h0⟩
        · exact ⟨_, .failed hp hq hc h0⟩

end
end Bliss.Gpu
