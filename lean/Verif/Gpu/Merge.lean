import Verif.Gpu.Sched
import Mathlib.Logic.Relation
import Mathlib.Order.Defs.LinearOrder
import Mathlib.Order.Basic
import Mathlib.Data.Set.Finite.Basic
import Mathlib.Data.Finset.Card

/-!
# The lock-free merge of protohits

`merge_labels` joins neighbouring protohits with an atomic compare-and-swap on the field
`invalidated_by` of the worse one. This file models every access to that field as a step and
proves the result of every complete execution.
-/

namespace Bliss.Gpu

/-- The part of `device_protohit` used by the merge (`bliss/core/include/core/protohit.hpp`
33–45): the position of the peak as `index_max.drift_index * number_channels +
index_max.frequency_channel`, its SNR, and `invalidated_by`. -/
structure Slot (F : Type) where
  pixel : Int
  snr : F
  inv : Int

section
variable {F : Type} [LinearOrder F]

/-- Models `connected_components_cuda.cu` 223–245: `(to_invalidate, merged_root)` for the pixel
root `p` with slot `a` and the neighbour root `q` with slot `b`. -/
def casPair (a b : Slot F) (p q : Int) : Int × Int :=
  if a.snr > b.snr then (q, p)
  else if b.snr > a.snr then (p, q)
  else if b.pixel < a.pixel then (p, q)
  else (q, p)

/-- Where a thread of `merge_labels` is: the source line of its next access to a slot.
`p` is `pixel_root`, `q` is `neighbor_root`, `qs` the labels of the neighbours not yet visited,
`w` the work left: the label of each later pixel of this thread with the labels of its
neighbours. The labels are not written by this kernel, so reading them is not a step. -/
inductive MState
  | done
  | chase (p : Int) (qs : List Int) (w : List (Int × List Int))
  | chaseTo (p : Int) (qs : List Int) (w : List (Int × List Int))
  | pix (p q : Int) (qs : List Int) (w : List (Int × List Int))
  | pixTo (p q : Int) (qs : List Int) (w : List (Int × List Int))
  | nbr (p q : Int) (qs : List Int) (w : List (Int × List Int))
  | nbrTo (p q : Int) (qs : List Int) (w : List (Int × List Int))
  | cas (p q : Int) (qs : List Int) (w : List (Int × List Int))
  deriving DecidableEq

/-- The loop over the pixels of a thread (169–181): go to the first access of the next pixel. -/
def resume : List (Int × List Int) → MState
  | [] => .done
  | (p, qs) :: w => .chase p qs w

/-- The loop over the neighbours of a pixel (185–211). -/
def nextNbr (p : Int) (qs : List Int) (w : List (Int × List Int)) : MState :=
  match qs with
  | [] => resume w
  | q :: qs => .pix p q qs w

/-- Memory with the field `invalidated_by` of slot `i` set to `v`. -/
def setInv (s : Buf (Slot F)) (i v : Int) : Buf (Slot F) :=
  fun j => if j = i then (s i).map fun a => { a with inv := v } else s j

/-- Models `merge_labels`, `connected_components_cuda.cu` 155–265. The loops
`while (protohits[r].invalidated_by != 0) r = protohits[r].invalidated_by` read the field
twice: the states `chase`, `pix`, `nbr` are the test, `chaseTo`, `pixTo`, `nbrTo` the second
read. These are plain loads: with `stale = true` a test may see the initial value 0 although
another thread has already set the field; a second read sees what the test saw (a field is set
once). The fields `snr` and `index_max` are not written by this kernel; they are read together
with the compare-and-swap. -/
inductive MergeStep (stale : Bool) : Kernel MState (Buf (Slot F))
  | chaseRoot {p qs w s a} (h : s p = some a) (h0 : stale = true ∨ a.inv = 0) :
      MergeStep stale (.chase p qs w) s (.ok (nextNbr p qs w, s))
  | chaseUp {p qs w s a} (h : s p = some a) (h0 : a.inv ≠ 0) :
      MergeStep stale (.chase p qs w) s (.ok (.chaseTo p qs w, s))
  | chaseTo {p qs w s a} (h : s p = some a) :
      MergeStep stale (.chaseTo p qs w) s (.ok (.chase a.inv qs w, s))
  | pixRoot {p q qs w s a} (h : s p = some a) (h0 : stale = true ∨ a.inv = 0) :
      MergeStep stale (.pix p q qs w) s (.ok (.nbr p q qs w, s))
  | pixUp {p q qs w s a} (h : s p = some a) (h0 : a.inv ≠ 0) :
      MergeStep stale (.pix p q qs w) s (.ok (.pixTo p q qs w, s))
  | pixTo {p q qs w s a} (h : s p = some a) :
      MergeStep stale (.pixTo p q qs w) s (.ok (.pix a.inv q qs w, s))
  | nbrSame {p q qs w s a} (h : s q = some a) (h0 : stale = true ∨ a.inv = 0) (he : p = q) :
      MergeStep stale (.nbr p q qs w) s (.ok (nextNbr p qs w, s))
  | nbrRoot {p q qs w s a} (h : s q = some a) (h0 : stale = true ∨ a.inv = 0) (he : p ≠ q) :
      MergeStep stale (.nbr p q qs w) s (.ok (.cas p q qs w, s))
  | nbrUp {p q qs w s a} (h : s q = some a) (h0 : a.inv ≠ 0) :
      MergeStep stale (.nbr p q qs w) s (.ok (.nbrTo p q qs w, s))
  | nbrTo {p q qs w s a} (h : s q = some a) :
      MergeStep stale (.nbrTo p q qs w) s (.ok (.nbr p a.inv qs w, s))
  | swapped {p q qs w s a b c} (hp : s p = some a) (hq : s q = some b)
      (hl : s (casPair a b p q).1 = some c) (h0 : c.inv = 0) :
      MergeStep stale (.cas p q qs w) s
        (.ok (nextNbr p qs w, setInv s (casPair a b p q).1 (casPair a b p q).2))
  | failed {p q qs w s a b c} (hp : s p = some a) (hq : s q = some b)
      (hl : s (casPair a b p q).1 = some c) (h0 : c.inv ≠ 0) :
      MergeStep stale (.cas p q qs w) s (.ok (.pix p q qs w, s))
  | chaseBad {p qs w s} (h : s p = none) : MergeStep stale (.chase p qs w) s .ub
  | chaseToBad {p qs w s} (h : s p = none) : MergeStep stale (.chaseTo p qs w) s .ub
  | pixBad {p q qs w s} (h : s p = none) : MergeStep stale (.pix p q qs w) s .ub
  | pixToBad {p q qs w s} (h : s p = none) : MergeStep stale (.pixTo p q qs w) s .ub
  | nbrBad {p q qs w s} (h : s q = none) : MergeStep stale (.nbr p q qs w) s .ub
  | nbrToBad {p q qs w s} (h : s q = none) : MergeStep stale (.nbrTo p q qs w) s .ub
  | casBad {p q qs w s} (h : s p = none ∨ s q = none) : MergeStep stale (.cas p q qs w) s .ub

/-! ## Specification -/

/-- Protohit `a` is preferred to `b`: higher SNR, or equal SNR and an earlier position. -/
def Better (a b : Slot F) : Prop := b.snr < a.snr ∨ (a.snr = b.snr ∧ a.pixel < b.pixel)

/-- The pairs of labels that a list of work asks to join. -/
def edgesOf (w : List (Int × List Int)) (a b : Int) : Prop := ∃ qs, (a, qs) ∈ w ∧ b ∈ qs

/-- Two labels are connected by the work of all threads. -/
def Linked {ι : Type} (work : ι → List (Int × List Int)) : Int → Int → Prop :=
  Relation.EqvGen fun a b => ∃ i, edgesOf (work i) a b

/-- What the merge needs of the memory it is given: the labels in use, `V`, have slots at
different positions that are not invalidated, and all work is about labels in use. -/
structure MergeReady {ι : Type} (V : Int → Prop) (s : Buf (Slot F))
    (work : ι → List (Int × List Int)) : Prop where
  slot : ∀ i, V i → ∃ a, s i = some a ∧ a.inv = 0
  pos : ∀ i, V i → i ≠ 0
  inj : ∀ i j a b, V i → V j → s i = some a → s j = some b → a.pixel = b.pixel → i = j
  work : ∀ t p qs, (p, qs) ∈ work t → V p ∧ ∀ q ∈ qs, V q

/-! ## Proofs -/

theorem Better.trans {a b c : Slot F} (h : Better a b) (h' : Better b c) : Better a c := by
  rcases h with h | ⟨h, h1⟩ <;> rcases h' with h' | ⟨h', h1'⟩
  · exact .inl (h'.trans h)
  · exact .inl (h' ▸ h)
  · exact .inl (h.symm ▸ h')
  · exact .inr ⟨h.trans h', h1.trans h1'⟩

theorem Better.irrefl {a : Slot F} : ¬ Better a a := by
  rintro (h | ⟨_, h⟩) <;> exact lt_irrefl _ h

theorem Better.asymm {a b : Slot F} (h : Better a b) (h' : Better b a) : False :=
  (h.trans h').irrefl

theorem better_total {a b : Slot F} (h : a.pixel ≠ b.pixel) : Better a b ∨ Better b a := by
  rcases lt_trichotomy a.snr b.snr with h1 | h1 | h1
  · exact .inr (.inl h1)
  · rcases lt_or_gt_of_ne h with h2 | h2
    · exact .inl (.inr ⟨h1, h2⟩)
    · exact .inr (.inr ⟨h1.symm, h2⟩)
  · exact .inl (.inl h1)

theorem casPair_cases {a b : Slot F} {p q : Int} (h : a.pixel ≠ b.pixel) :
    (casPair a b p q = (q, p) ∧ Better a b) ∨ (casPair a b p q = (p, q) ∧ Better b a) := by
  unfold casPair
  split
  · exact .inl ⟨rfl, .inl ‹_›⟩
  · split
    · exact .inr ⟨rfl, .inl ‹_›⟩
    · have he : a.snr = b.snr := le_antisymm (not_lt.1 ‹_›) (not_lt.1 ‹_›)
      split
      · exact .inr ⟨rfl, .inr ⟨he.symm, ‹_›⟩⟩
      · exact .inl ⟨rfl, .inr ⟨he, by omega⟩⟩

/-- The value of `invalidated_by` of a slot; 0 where there is none. -/
def par (s : Buf (Slot F)) (i : Int) : Int := match s i with | some a => a.inv | none => 0

/-- One hop of the chase. -/
def Hop (V : Int → Prop) (s : Buf (Slot F)) (i j : Int) : Prop := V i ∧ par s i = j ∧ j ≠ 0

/-- Labels joined so far. -/
def Tree (V : Int → Prop) (s : Buf (Slot F)) : Int → Int → Prop := Relation.EqvGen (Hop V s)

/-- Memory invariant of the merge, relative to the memory `s0` it started with. -/
structure MInv (V : Int → Prop) (s0 : Buf (Slot F)) (C : Int → Int → Prop) (s : Buf (Slot F)) :
    Prop where
  slot : ∀ i a, V i → s0 i = some a → ∃ v, s i = some { a with inv := v } ∧
    (v = 0 ∨ (V v ∧ (∃ b, s0 v = some b ∧ Better b a) ∧ C i v))
  other : ∀ i, ¬ V i → s i = s0 i

/-- What a step may do: fields already set stay. -/
def MGuar (V : Int → Prop) (s s' : Buf (Slot F)) : Prop := ∀ i j, Hop V s i j → Hop V s' i j

/-- Everything a thread still talks about is in use and connected. -/
def MLocal (V : Int → Prop) (C : Int → Int → Prop) : MState → Prop
  | .done => True
  | .chase p qs w | .chaseTo p qs w =>
    V p ∧ (∀ q ∈ qs, V q ∧ C p q) ∧ ∀ r rs, (r, rs) ∈ w → V r ∧ ∀ q ∈ rs, V q ∧ C r q
  | .pix p q qs w | .pixTo p q qs w | .nbr p q qs w | .nbrTo p q qs w =>
    V p ∧ V q ∧ C p q ∧ (∀ q ∈ qs, V q ∧ C p q) ∧
      ∀ r rs, (r, rs) ∈ w → V r ∧ ∀ q ∈ rs, V q ∧ C r q
  | .cas p q qs w =>
    V p ∧ V q ∧ C p q ∧ p ≠ q ∧ (∀ q ∈ qs, V q ∧ C p q) ∧
      ∀ r rs, (r, rs) ∈ w → V r ∧ ∀ q ∈ rs, V q ∧ C r q

/-- A second read sees a field that is set. -/
def MSet (s : Buf (Slot F)) : MState → Prop
  | .chaseTo p _ _ | .pixTo p _ _ _ => par s p ≠ 0
  | .nbrTo _ q _ _ => par s q ≠ 0
  | _ => True

/-- The pair `(a, b)` is still to be joined by a thread in the given state. -/
def MTodo (R : Int → Int → Prop) (a b : Int) : MState → Prop
  | .done => False
  | .chase p qs w | .chaseTo p qs w => (R a p ∧ b ∈ qs) ∨ edgesOf w a b
  | .pix p q qs w | .pixTo p q qs w | .nbr p q qs w | .nbrTo p q qs w | .cas p q qs w =>
    (R a p ∧ R b q) ∨ (R a p ∧ b ∈ qs) ∨ edgesOf w a b

theorem Tree.mono {V : Int → Prop} {s s' : Buf (Slot F)} (h : MGuar V s s') {i j : Int}
    (ht : Tree V s i j) : Tree V s' i j :=
  Relation.EqvGen.mono (fun a b hab => h a b hab) _ _ ht

theorem MTodo.mono {R R' : Int → Int → Prop} (h : ∀ a b, R a b → R' a b) {a b : Int}
    {l : MState} (ht : MTodo R a b l) : MTodo R' a b l := by
  cases l <;> simp only [MTodo] at ht ⊢ <;> grind

theorem MInv.par_cases {V : Int → Prop} {s0 s : Buf (Slot F)} {C : Int → Int → Prop}
    {ι : Type} {work : ι → List (Int × List Int)} (hr : MergeReady V s0 work)
    (hI : MInv V s0 C s) {i : Int} (hi : V i) {a : Slot F} (h : s i = some a) (ha : a.inv ≠ 0) :
    V a.inv ∧ C i a.inv ∧ Hop V s i a.inv := by
  obtain ⟨a0, h0, _⟩ := hr.slot i hi
  obtain ⟨v, hv, hc⟩ := hI.slot i a0 hi h0
  rw [h] at hv
  obtain rfl := Option.some.inj hv
  rcases hc with hc | ⟨h1, _, h3⟩
  · exact absurd hc ha
  · exact ⟨h1, h3, hi, by simp [par, h], ha⟩

theorem par_setInv {s : Buf (Slot F)} {i v j : Int} {c : Slot F} (h : s i = some c) :
    par (setInv s i v) j = if j = i then v else par s j := by
  by_cases hj : j = i
  · subst hj; simp [par, setInv, h]
  · simp [par, setInv, hj]

theorem local_next {V : Int → Prop} {C : Int → Int → Prop} {p : Int} {qs : List Int}
    {w : List (Int × List Int)} (hp : V p) (hq : ∀ q ∈ qs, V q ∧ C p q)
    (hw : ∀ r rs, (r, rs) ∈ w → V r ∧ ∀ q ∈ rs, V q ∧ C r q) :
    MLocal V C (nextNbr p qs w) := by
  cases qs with
  | nil =>
    cases w with
    | nil => trivial
    | cons x w =>
      obtain ⟨r, rs⟩ := x
      exact ⟨(hw r rs (by simp)).1, (hw r rs (by simp)).2, fun r' rs' h => hw r' rs' (by simp [h])⟩
  | cons q qs =>
    exact ⟨hp, (hq q (by simp)).1, (hq q (by simp)).2, fun q' h => hq q' (by simp [h]), hw⟩

theorem set_next {s : Buf (Slot F)} {p : Int} {qs : List Int} {w : List (Int × List Int)} :
    MSet s (nextNbr p qs w) := by
  cases qs with
  | nil => cases w <;> trivial
  | cons q qs => trivial

theorem todo_resume {R : Int → Int → Prop} (hR : ∀ a, R a a) {w : List (Int × List Int)}
    {a b : Int} (h : edgesOf w a b) : MTodo R a b (resume w) := by
  cases w with
  | nil => obtain ⟨_, h, _⟩ := h; simp at h
  | cons x w =>
    obtain ⟨r, rs⟩ := x
    obtain ⟨qs, h, hb⟩ := h
    rcases List.mem_cons.1 h with h | h
    · obtain ⟨rfl, rfl⟩ := Prod.mk.inj h
      exact .inl ⟨hR _, hb⟩
    · exact .inr ⟨qs, h, hb⟩

theorem todo_next {R : Int → Int → Prop} (hR : ∀ a, R a a) {p : Int} {qs : List Int}
    {w : List (Int × List Int)} {a b : Int} (h : (R a p ∧ b ∈ qs) ∨ edgesOf w a b) :
    MTodo R a b (nextNbr p qs w) := by
  cases qs with
  | nil =>
    rcases h with ⟨_, h⟩ | h
    · simp at h
    · exact todo_resume hR h
  | cons q qs =>
    rcases h with ⟨h, hb⟩ | h
    · rcases List.mem_cons.1 hb with rfl | hb
      · exact .inl ⟨h, hR _⟩
      · exact .inr (.inl ⟨h, hb⟩)
    · exact .inr (.inr h)

section Main
variable {ι : Type} {V : Int → Prop} {s0 : Buf (Slot F)}
  {work : ι → List (Int × List Int)}

/-- Thread assertion of the merge. -/
def MAssert (V : Int → Prop) (work : ι → List (Int × List Int)) (i : ι) (l : MState)
    (s : Buf (Slot F)) : Prop :=
  MLocal V (Linked work) l ∧ MSet s l ∧
    ∀ a b, edgesOf (work i) a b → Tree V s a b ∨ MTodo (Tree V s) a b l

theorem tree_refl (s : Buf (Slot F)) (a : Int) : Tree V s a a := .refl a

theorem merge_safe (hr : MergeReady V s0 work) {stale : Bool} {i : ι} {l : MState}
    {s : Buf (Slot F)} (hI : MInv V s0 (Linked work) s) (hT : MAssert V work i l s) :
    ¬ MergeStep stale l s .ub := by
  have hs : ∀ p, V p → s p ≠ none := by
    intro p hp hn
    obtain ⟨a, ha, _⟩ := hr.slot p hp
    obtain ⟨v, hv, _⟩ := hI.slot p a hp ha
    rw [hv] at hn; cases hn
  intro h
  cases h with
  | chaseBad h => exact hs _ hT.1.1 h
  | chaseToBad h => exact hs _ hT.1.1 h
  | pixBad h => exact hs _ hT.1.1 h
  | pixToBad h => exact hs _ hT.1.1 h
  | nbrBad h => exact hs _ hT.1.2.1 h
  | nbrToBad h => exact hs _ hT.1.2.1 h
  | casBad h => exact h.elim (hs _ hT.1.1) (hs _ hT.1.2.1)

theorem merge_step (hr : MergeReady V s0 work) {stale : Bool} {i : ι} {l l' : MState}
    {s s' : Buf (Slot F)} (hI : MInv V s0 (Linked work) s) (hT : MAssert V work i l s)
    (hk : MergeStep stale l s (.ok (l', s'))) :
    MInv V s0 (Linked work) s' ∧ MAssert V work i l' s' ∧ MGuar V s s' := by
  obtain ⟨hL, hS, hE⟩ := hT
  have hG : MGuar V s s := fun _ _ h => h
  have hR := tree_refl (V := V) s
  -- connectedness of a hop
  have hop : ∀ {p : Int} {a : Slot F}, V p → s p = some a → a.inv ≠ 0 →
      V a.inv ∧ Linked work p a.inv ∧ Tree V s p a.inv := fun hp h ha =>
    let ⟨h1, h2, h3⟩ := hI.par_cases hr hp h ha
    ⟨h1, h2, .rel _ _ h3⟩
  cases hk with
  | chaseRoot h h0 =>
    refine ⟨hI, ⟨local_next hL.1 hL.2.1 hL.2.2, set_next, fun a b hab => ?_⟩, hG⟩
    exact (hE a b hab).imp id (fun h => todo_next hR h)
  | chaseUp h h0 => exact ⟨hI, ⟨hL, by simpa [MSet, par, h] using h0, hE⟩, hG⟩
  | @chaseTo p qs w _ a h =>
    have ha : a.inv ≠ 0 := by simpa [MSet, par, h] using hS
    obtain ⟨h1, h2, h3⟩ := hop hL.1 h ha
    refine ⟨hI, ⟨⟨h1, fun q hq => ⟨(hL.2.1 q hq).1, .trans _ _ _ (.symm _ _ h2) (hL.2.1 q hq).2⟩,
      hL.2.2⟩, trivial, fun x y hxy => (hE x y hxy).imp id ?_⟩, hG⟩
    rintro (⟨h, hq⟩ | h)
    · exact .inl ⟨.trans _ _ _ h h3, hq⟩
    · exact .inr h
  | pixRoot h h0 => exact ⟨hI, ⟨hL, trivial, hE⟩, hG⟩
  | pixUp h h0 => exact ⟨hI, ⟨hL, by simpa [MSet, par, h] using h0, hE⟩, hG⟩
  | @pixTo p q qs w _ a h =>
    have ha : a.inv ≠ 0 := by simpa [MSet, par, h] using hS
    obtain ⟨h1, h2, h3⟩ := hop hL.1 h ha
    have hb : ∀ {q}, Linked work p q → Linked work a.inv q := fun h => .trans _ _ _ (.symm _ _ h2) h
    refine ⟨hI, ⟨⟨h1, hL.2.1, hb hL.2.2.1, fun q hq => ⟨(hL.2.2.2.1 q hq).1, hb (hL.2.2.2.1 q hq).2⟩,
      hL.2.2.2.2⟩, trivial, fun x y hxy => (hE x y hxy).imp id ?_⟩, hG⟩
    rintro (⟨h, hq⟩ | ⟨h, hq⟩ | h)
    · exact .inl ⟨.trans _ _ _ h h3, hq⟩
    · exact .inr (.inl ⟨.trans _ _ _ h h3, hq⟩)
    · exact .inr (.inr h)
  | @nbrSame p q qs w _ a h h0 he =>
    subst he
    refine ⟨hI, ⟨local_next hL.1 hL.2.2.2.1 hL.2.2.2.2, set_next, fun x y hxy => ?_⟩, hG⟩
    rcases hE x y hxy with h | ⟨h, h'⟩ | h
    · exact .inl h
    · exact .inl (.trans _ _ _ h (.symm _ _ h'))
    · exact .inr (todo_next hR h)
  | nbrRoot h h0 he => exact ⟨hI, ⟨⟨hL.1, hL.2.1, hL.2.2.1, he, hL.2.2.2⟩, trivial, hE⟩, hG⟩
  | nbrUp h h0 => exact ⟨hI, ⟨hL, by simpa [MSet, par, h] using h0, hE⟩, hG⟩
  | @nbrTo p q qs w _ a h =>
    have ha : a.inv ≠ 0 := by simpa [MSet, par, h] using hS
    obtain ⟨h1, h2, h3⟩ := hop hL.2.1 h ha
    refine ⟨hI, ⟨⟨hL.1, h1, .trans _ _ _ hL.2.2.1 h2, hL.2.2.2⟩, trivial,
      fun x y hxy => (hE x y hxy).imp id ?_⟩, hG⟩
    rintro (⟨h, hq⟩ | ⟨h, hq⟩ | h)
    · exact .inl ⟨h, .trans _ _ _ hq h3⟩
    · exact .inr (.inl ⟨h, hq⟩)
    · exact .inr (.inr h)
  | @swapped p q qs w _ a b c hp hq hl h0 =>
    obtain ⟨hVp, hVq, hC, hne, hqs, hw⟩ := hL
    obtain ⟨a0, ha0, hai⟩ := hr.slot p hVp
    obtain ⟨b0, hb0, hbi⟩ := hr.slot q hVq
    obtain ⟨va, hva, _⟩ := hI.slot p a0 hVp ha0
    obtain ⟨vb, hvb, _⟩ := hI.slot q b0 hVq hb0
    rw [hp] at hva; rw [hq] at hvb
    obtain rfl := Option.some.inj hva
    obtain rfl := Option.some.inj hvb
    have hpix : a0.pixel ≠ b0.pixel := fun h => hne (hr.inj p q a0 b0 hVp hVq ha0 hb0 h)
    -- loser `x`, winner `y`
    obtain ⟨x, y, x0, y0, hxy, hVx, hVy, hx0, hy0, hB, hCxy, hsym⟩ :
        ∃ x y x0 y0, casPair { a0 with inv := va } { b0 with inv := vb } p q = (x, y) ∧ V x ∧ V y ∧
          s0 x = some x0 ∧ s0 y = some y0 ∧ Better y0 x0 ∧ Linked work x y ∧
          ((x = p ∧ y = q) ∨ (x = q ∧ y = p)) := by
      rcases casPair_cases (p := p) (q := q)
          (a := { a0 with inv := va }) (b := { b0 with inv := vb }) hpix with ⟨h, hB⟩ | ⟨h, hB⟩
      · exact ⟨q, p, b0, a0, h, hVq, hVp, hb0, ha0, hB, .symm _ _ hC, .inr ⟨rfl, rfl⟩⟩
      · exact ⟨p, q, a0, b0, h, hVp, hVq, ha0, hb0, hB, hC, .inl ⟨rfl, rfl⟩⟩
    rw [hxy] at hl ⊢
    simp only at hl ⊢
    have hy : y ≠ 0 := hr.pos y hVy
    have hpx : par s x = 0 := by simp [par, hl, h0]
    have hG' : MGuar V s (setInv s x y) := by
      rintro i j ⟨hi, hij, hj⟩
      refine ⟨hi, ?_, hj⟩
      rw [par_setInv hl]
      split
      · rename_i he; subst he; exact absurd (hij.symm.trans hpx) hj
      · exact hij
    have hT' : Tree V (setInv s x y) p q := by
      have : Tree V (setInv s x y) x y := .rel _ _ ⟨hVx, by simp [par_setInv hl], hy⟩
      rcases hsym with ⟨rfl, rfl⟩ | ⟨rfl, rfl⟩
      · exact this
      · exact .symm _ _ this
    refine ⟨⟨fun i a hi ha => ?_, fun i hi => ?_⟩, ⟨local_next hVp hqs hw, set_next,
      fun u v huv => ?_⟩, hG'⟩
    · by_cases hix : i = x
      · subst hix
        obtain ⟨v, hv, _⟩ := hI.slot i a hi ha
        obtain rfl := Option.some.inj (ha.symm.trans hx0)
        exact ⟨y, by simp [setInv, hv], .inr ⟨hVy, ⟨y0, hy0, hB⟩, hCxy⟩⟩
      · obtain ⟨v, hv, hc⟩ := hI.slot i a hi ha
        exact ⟨v, by simp [setInv, hix, hv], hc⟩
    · have : i ≠ x := fun h => hi (h ▸ hVx)
      simp [setInv, this, hI.other i hi]
    · rcases hE u v huv with h | ⟨h, h'⟩ | h
      · exact .inl (h.mono hG')
      · exact .inl (.trans _ _ _ (h.mono hG') (.trans _ _ _ hT' (.symm _ _ (h'.mono hG'))))
      · exact .inr (todo_next (tree_refl _) (h.imp (fun h => ⟨h.1.mono hG', h.2⟩) id))
  | failed hp hq hl h0 =>
    exact ⟨hI, ⟨⟨hL.1, hL.2.1, hL.2.2.1, hL.2.2.2.2⟩, trivial, hE⟩, hG⟩

theorem merge_stable {i j : ι} {l : MState} {s s' : Buf (Slot F)}
    (hVs : ∀ l, MLocal V (Linked work) l → MSet s l → MSet s' l)
    (hG : MGuar V s s') (h : MAssert V work j l s) : MAssert V work j l s' :=
  ⟨h.1, hVs l h.1 h.2.1, fun a b hab => (h.2.2 a b hab).imp (Tree.mono hG)
    (fun h => h.mono fun _ _ => Tree.mono hG)⟩

theorem set_mono {s s' : Buf (Slot F)} (hG : MGuar V s s') (l : MState)
    (hL : MLocal V (Linked work) l) (h : MSet s l) : MSet s' l := by
  have key : ∀ p, V p → par s p ≠ 0 → par s' p ≠ 0 := fun p hp hne => by
    obtain ⟨_, h2, h3⟩ := hG p _ ⟨hp, rfl, hne⟩
    rw [h2]; exact h3
  cases l <;> simp only [MSet] at h ⊢
  · exact key _ hL.1 h
  · exact key _ hL.1 h
  · exact key _ hL.2.1 h

variable [DecidableEq ι]

/-- Where each thread starts. -/
def mergeInit (work : ι → List (Int × List Int)) : ι → MState := fun i => resume (work i)

theorem merge_start (hr : MergeReady V s0 work) :
    MInv V s0 (Linked work) s0 ∧ ∀ i, MAssert V work i (mergeInit work i) s0 := by
  refine ⟨⟨fun i a hi ha => ⟨0, ?_, .inl rfl⟩, fun _ _ => rfl⟩, fun i => ?_⟩
  · obtain ⟨a', ha', h0⟩ := hr.slot i hi
    obtain rfl := Option.some.inj (ha.symm.trans ha')
    rw [ha]; rw [← h0]
  · have hw : ∀ r rs, (r, rs) ∈ work i → V r ∧ ∀ q ∈ rs, V q ∧ Linked work r q :=
      fun r rs h => ⟨(hr.work i r rs h).1, fun q hq =>
        ⟨(hr.work i r rs h).2 q hq, .rel _ _ ⟨i, rs, h, hq⟩⟩⟩
    refine ⟨?_, ?_, fun a b hab => .inr (todo_resume (tree_refl _) hab)⟩
    · unfold mergeInit
      cases h : work i with
      | nil => trivial
      | cons x w =>
        obtain ⟨r, rs⟩ := x
        rw [h] at hw
        exact ⟨(hw r rs (by simp)).1, (hw r rs (by simp)).2, fun r' rs' h' => hw r' rs' (by simp [h'])⟩
    · unfold mergeInit
      cases work i <;> trivial

/-- Every reachable state of the merge satisfies the invariants; no access is out of bounds. -/
theorem merge_reach (hr : MergeReady V s0 work) {stale : Bool}
    {o : Outcome ((ι → MState) × Buf (Slot F))}
    (h : Exec (MergeStep stale) (mergeInit work) s0 o) :
    ∃ ls s, o = .ok (ls, s) ∧ MInv V s0 (Linked work) s ∧ ∀ i, MAssert V work i (ls i) s :=
  h.rely (I := MInv V s0 (Linked work)) (T := MAssert V work) (G := fun _ => MGuar V)
    (fun _ _ _ _ _ hI hT hk => merge_step hr hI hT hk)
    (fun _ _ _ hI hT => merge_safe hr hI hT)
    (fun i _ _ _ _ _ _ _ hG hT => merge_stable (i := i) (fun l => set_mono hG l) hG hT)
    (merge_start hr).1 (merge_start hr).2

end Main

/-! ### Roots -/

section Roots
variable {V : Int → Prop} {s : Buf (Slot F)}

/-- `r` is the root that the chase from `i` ends in. -/
def RootOf (V : Int → Prop) (s : Buf (Slot F)) (i r : Int) : Prop :=
  Relation.ReflTransGen (Hop V s) i r ∧ par s r = 0

theorem rootOf_unique {i r r' : Int} (h : RootOf V s i r) (h' : RootOf V s i r') : r = r' := by
  obtain ⟨h, hr⟩ := h
  induction h using Relation.ReflTransGen.head_induction_on with
  | refl =>
    rcases Relation.ReflTransGen.cases_head h'.1 with h | ⟨j, ⟨_, hj, hj0⟩, _⟩
    · exact h
    · exact absurd (hj.symm.trans hr) hj0
  | head hj _ ih =>
    rcases Relation.ReflTransGen.cases_head h'.1 with h | ⟨k, hk, hk'⟩
    · subst h
      exact absurd (hj.2.1.symm.trans h'.2) hj.2.2
    · have : _ = k := hj.2.1.symm.trans hk.2.1
      subst this
      exact ih ⟨hk', h'.2⟩

theorem rootOf_tree {i j r : Int} (hroot : ∀ i, ∃ r, RootOf V s i r) (h : Tree V s i j) :
    RootOf V s i r ↔ RootOf V s j r := by
  induction h generalizing r with
  | rel x y h =>
    constructor
    · intro hx
      obtain ⟨r', hy⟩ := hroot y
      have := rootOf_unique hx ⟨.head h hy.1, hy.2⟩
      subst this; exact hy
    · intro hy; exact ⟨.head h hy.1, hy.2⟩
  | refl => exact Iff.rfl
  | symm _ _ _ ih => exact ih.symm
  | trans _ _ _ _ _ ih1 ih2 => exact ih1.trans ih2

end Roots

section Result
variable {ι : Type} [DecidableEq ι] {V : Int → Prop} {s0 : Buf (Slot F)}
  {work : ι → List (Int × List Int)}

theorem MInv.hop_better {C : Int → Int → Prop} (hr : MergeReady V s0 work) {s : Buf (Slot F)}
    (hI : MInv V s0 C s) {i j : Int} (h : Hop V s i j) :
    V j ∧ C i j ∧ ∃ a b, s0 i = some a ∧ s0 j = some b ∧ Better b a := by
  obtain ⟨hi, hij, hj⟩ := h
  obtain ⟨a, ha, _⟩ := hr.slot i hi
  obtain ⟨v, hv, hc⟩ := hI.slot i a hi ha
  have : v = j := by simpa [par, hv] using hij
  subst this
  rcases hc with hc | ⟨h1, ⟨b, hb, hB⟩, h3⟩
  · exact absurd hc hj
  · exact ⟨h1, h3, a, b, ha, hb, hB⟩

theorem hops_better {C : Int → Int → Prop} (hr : MergeReady V s0 work) {s : Buf (Slot F)}
    (hI : MInv V s0 C s) {i j : Int} (h : Relation.ReflTransGen (Hop V s) i j) :
    i = j ∨ ∃ a b, s0 i = some a ∧ s0 j = some b ∧ Better b a := by
  induction h with
  | refl => exact .inl rfl
  | tail _ hjk ih =>
    obtain ⟨_, _, a, b, ha, hb, hB⟩ := hI.hop_better hr hjk
    rcases ih with rfl | ⟨a', b', ha', hb', hB'⟩
    · exact .inr ⟨a, b, ha, hb, hB⟩
    · obtain rfl := Option.some.inj (ha.symm.trans hb')
      exact .inr ⟨a', b, ha', hb, hB.trans hB'⟩

/-- Chases end: the labels in use are finitely many and every hop improves. -/
theorem exists_root {C : Int → Int → Prop} (hr : MergeReady V s0 work) (hfin : {i | V i}.Finite)
    {s : Buf (Slot F)} (hI : MInv V s0 C s) (hother : ∀ i, ¬ V i → par s0 i = par s i) (i : Int) :
    ∃ r, Relation.ReflTransGen (Hop V s) i r ∧ (par s r = 0 ∨ ¬ V r) := by
  classical
  by_cases hi : V i
  swap
  · exact ⟨i, .refl, .inr hi⟩
  -- the set of labels strictly better than `i`
  induction hn : (hfin.toFinset.filter fun j =>
      ∃ a b, s0 i = some a ∧ s0 j = some b ∧ Better b a).card using Nat.strong_induction_on
      generalizing i with
  | _ n ih =>
    by_cases h0 : par s i = 0
    · exact ⟨i, .refl, .inl h0⟩
    · have hop : Hop V s i (par s i) := ⟨hi, rfl, h0⟩
      obtain ⟨hj, _, a, b, ha, hb, hB⟩ := hI.hop_better hr hop
      have hlt : (hfin.toFinset.filter fun k =>
          ∃ c d, s0 (par s i) = some c ∧ s0 k = some d ∧ Better d c).card < n := by
        rw [← hn]
        refine Finset.card_lt_card ⟨fun k hk => ?_, fun hsub => ?_⟩
        · simp only [Finset.mem_filter, Set.Finite.mem_toFinset] at hk ⊢
          obtain ⟨hk, c, d, hc, hd, hB'⟩ := hk
          obtain rfl := Option.some.inj (hb.symm.trans hc)
          exact ⟨hk, a, d, ha, hd, hB'.trans hB⟩
        · have : par s i ∈ hfin.toFinset.filter fun j =>
              ∃ a b, s0 i = some a ∧ s0 j = some b ∧ Better b a := by
            simp only [Finset.mem_filter, Set.Finite.mem_toFinset]
            exact ⟨hj, a, b, ha, hb, hB⟩
          have := hsub this
          simp only [Finset.mem_filter, Set.Finite.mem_toFinset] at this
          obtain ⟨_, c, d, hc, hd, hB'⟩ := this
          obtain rfl := Option.some.inj (hc.symm.trans hd)
          exact hB'.irrefl
      obtain ⟨r, h1, h2⟩ := ih _ hlt (par s i) hj rfl
      exact ⟨r, .head hop h1, h2⟩

theorem linked_in_use (hr : MergeReady V s0 work) {i j : Int} (h : Linked work i j) :
    (V i ↔ V j) := by
  induction h with
  | rel x y h =>
    obtain ⟨t, qs, h1, h2⟩ := h
    exact ⟨fun _ => (hr.work t x qs h1).2 y h2, fun _ => (hr.work t x qs h1).1⟩
  | refl => exact Iff.rfl
  | symm _ _ _ ih => exact ih.symm
  | trans _ _ _ _ _ ih1 ih2 => exact ih1.trans ih2

theorem returned_merge {stale : Bool} {l : MState} {s : Buf (Slot F)}
    (h : Returned (MergeStep (F := F) stale) l) : l = .done := by
  cases l with
  | done => rfl
  | _ => exact absurd (by first
      | exact MergeStep.chaseBad rfl | exact MergeStep.chaseToBad rfl | exact MergeStep.pixBad rfl
      | exact MergeStep.pixToBad rfl | exact MergeStep.nbrBad rfl | exact MergeStep.nbrToBad rfl
      | exact MergeStep.casBad (.inl rfl)) (h (fun _ => none) .ub)

/-- **Result of the merge.** In every complete execution, whatever the order of the steps and
even when tests see stale values, a protohit in use is left valid exactly if it is preferred to
all others that the neighbourhoods connect it to. -/
theorem merge_result (hr : MergeReady V s0 work) (hfin : {i | V i}.Finite) {stale : Bool}
    {s : Buf (Slot F)} (h : Completes (MergeStep stale) (mergeInit work) s0 s) :
    (∀ i, V i → ∃ a v, s0 i = some a ∧ s i = some { a with inv := v } ∧
      (v = 0 ↔ ∀ j b, Linked work i j → s0 j = some b → j = i ∨ Better a b)) ∧
    ∀ i, ¬ V i → s i = s0 i := by
  obtain ⟨ls, hE, hret⟩ := h
  obtain ⟨ls', s', he, hI, hT⟩ := merge_reach hr hE
  cases he
  refine ⟨fun i hi => ?_, hI.other⟩
  have hdone : ∀ t, ls t = .done := fun t => returned_merge (s := s) (hret t)
  have htree : ∀ a b, Linked work a b → Tree V s a b := by
    intro a b hab
    induction hab with
    | rel x y h =>
      obtain ⟨t, h⟩ := h
      rcases (hT t).2.2 x y h with h | h
      · exact h
      · rw [hdone t] at h; exact h.elim
    | refl => exact .refl _
    | symm _ _ _ ih => exact .symm _ _ ih
    | trans _ _ _ _ _ ih1 ih2 => exact .trans _ _ _ ih1 ih2
  obtain ⟨a, ha, _⟩ := hr.slot i hi
  obtain ⟨v, hv, hc⟩ := hI.slot i a hi ha
  refine ⟨a, v, ha, hv, fun h0 j b hij hb => ?_, fun hall => ?_⟩
  · -- chase from `j` ends in `i`
    have hj : V j := (linked_in_use hr hij).1 hi
    -- restrict roots to labels in use
    have huse : ∀ x y, Relation.ReflTransGen (Hop V s) x y → V x → V y := by
      intro x y hxy hx
      induction hxy with
      | refl => exact hx
      | tail _ h _ => exact (hI.hop_better hr h).1
    have hroot : ∀ x, V x → ∃ r, RootOf V s x r := by
      intro x hx
      obtain ⟨r, h1, h2⟩ := exists_root hr hfin hI
        (fun k hk => by simp [par, hI.other k hk]) x
      exact ⟨r, h1, h2.resolve_right fun hn => hn (huse x r h1 hx)⟩
    have hinv : ∀ x y, Tree V s x y → V x → V y ∧ ∀ r, RootOf V s x r ↔ RootOf V s y r := by
      have : ∀ x y, Tree V s x y → (V x ↔ V y) ∧
          (V x → ∀ r, RootOf V s x r ↔ RootOf V s y r) := by
        intro x y hxy
        induction hxy with
        | rel x y h =>
          refine ⟨⟨fun _ => (hI.hop_better hr h).1, fun _ => h.1⟩, fun _ r => ⟨fun hx => ?_, fun hy =>
            ⟨.head h hy.1, hy.2⟩⟩⟩
          obtain ⟨r', hy⟩ := hroot y (hI.hop_better hr h).1
          have := rootOf_unique hx ⟨.head h hy.1, hy.2⟩
          subst this; exact hy
        | refl => exact ⟨Iff.rfl, fun _ _ => Iff.rfl⟩
        | symm _ _ _ ih => exact ⟨ih.1.symm, fun hx r => (ih.2 (ih.1.2 hx) r).symm⟩
        | trans _ _ _ _ _ ih1 ih2 =>
          exact ⟨ih1.1.trans ih2.1, fun hx r => (ih1.2 hx r).trans (ih2.2 (ih1.1.1 hx) r)⟩
      exact fun x y hxy hx => ⟨(this x y hxy).1.1 hx, (this x y hxy).2 hx⟩
    have hri : RootOf V s i i := ⟨.refl, by simp [par, hv, h0]⟩
    have hrj := (((hinv i j (htree i j hij) hi).2 i).1 hri).1
    rcases hops_better hr hI hrj with h | ⟨b', a', hb', ha', hB⟩
    · exact .inl h
    · obtain rfl := Option.some.inj (hb.symm.trans hb')
      obtain rfl := Option.some.inj (ha.symm.trans ha')
      exact .inr hB
  · by_contra hv0
    rcases hc with hc | ⟨h1, ⟨b, hb, hB⟩, h3⟩
    · exact hv0 hc
    · rcases hall v b h3 hb with h | h
      · subst h
        obtain rfl := Option.some.inj (ha.symm.trans hb)
        exact hB.irrefl
      · exact hB.asymm h

end Result
end
end Bliss.Gpu
