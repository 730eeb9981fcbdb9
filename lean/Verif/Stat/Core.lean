import Verif.Stat.Lemmas

/-! # What a reduction returns, for any accumulator -/

namespace Bliss.Stat

open Bliss.Nd

variable {V A : Type}

/-- The axes a call reduces, as positions. -/
def redAxes (n : Nat) (axes : List Int) : List Nat :=
  if axes = [] then List.range n else axes.map Int.toNat

theorem redAxes_eq (a : Arr) (axes : List Int) :
    (allAxes a axes).map Int.toNat = redAxes a.dims.length axes := by
  unfold allAxes redAxes
  split
  · simp [Function.comp_def]
  · rfl

theorem redAxes_mem {n : Nat} {axes : List Int} (h : ∀ d ∈ axes, 0 ≤ d ∧ d < (n : Int)) (d : Nat) :
    d ∈ redAxes n axes → d < n := by
  unfold redAxes
  split
  · simp
  · intro hd
    obtain ⟨e, he, rfl⟩ := List.mem_map.mp hd
    have := h e he
    omega

theorem redAxes_nodup {n : Nat} {axes : List Int} (hn : axes.Nodup)
    (h : ∀ d ∈ axes, 0 ≤ d ∧ d < (n : Int)) : (redAxes n axes).Nodup := by
  unfold redAxes
  split
  · exact List.nodup_range
  · refine List.Nodup.map_on ?_ hn
    intro x hx y hy he
    have := h x hx
    have := h y hy
    omega

theorem not_mem_redAxes {n : Nat} {axes : List Int} (hne : axes ≠ [])
    (h : ∀ d ∈ axes, 0 ≤ d ∧ d < (n : Int)) (d : Nat) : d ∉ redAxes n axes ↔ (d : Int) ∉ axes := by
  unfold redAxes
  rw [if_neg hne, not_iff_not, List.mem_map]
  constructor
  · rintro ⟨e, he, rfl⟩
    have := h e he
    rwa [Int.toNat_of_nonneg this.1]
  · intro hd
    exact ⟨d, hd, by simp⟩

theorem zipIdx_eq (l : List Int) : l.zipIdx = (List.range l.length).map (fun i => (l.getD i 0, i)) := by
  apply List.ext_getElem (by simp)
  intro i h1 h2
  have : i < l.length := by simpa using h1
  simp [List.getD, this]

theorem keptAxes_all (n : Nat) : keptAxes n (redAxes n []) = [] := by
  simp [keptAxes, redAxes]

theorem remaining_eq {n : Nat} {axes : List Int} (h : ∀ d ∈ axes, 0 ≤ d ∧ d < (n : Int))
    (l : List Int) (hl : l.length = n) :
    remaining axes l = (keptAxes n (redAxes n axes)).map (fun d => l.getD d 0) := by
  unfold remaining
  split
  · next e => subst e; rw [keptAxes_all]; rfl
  · next hne =>
    rw [zipIdx_eq, List.filter_map, List.map_map, hl]
    unfold keptAxes
    have : (List.range n).filter (fun d => decide (d ∉ redAxes n axes)) =
        (List.range n).filter ((fun p : Int × Nat => decide ((p.2 : Int) ∉ axes)) ∘
          fun i => (l.getD i 0, i)) := by
      apply List.filter_congr
      intro d _
      simp only [Function.comp]
      exact decide_eq_decide.mpr (not_mem_redAxes hne h d)
    rw [this]
    rfl

theorem outShape_eq {a : Arr} {axes : List Int} (h : GoodAxes a axes) :
    outShape a axes = orUnit 1 (remaining axes a.shape) := by
  have hr := remaining_eq h.2 a.shape (shape_length a)
  rw [hr]
  unfold outShape orUnit
  have : (if axes = [] then [] else ((List.range a.dims.length).filter
      (fun (d : Nat) => (d : Int) ∉ axes)).map (fun d => a.shape.getD d 0)) =
      (keptAxes a.dims.length (redAxes a.dims.length axes)).map (fun d => a.shape.getD d 0) := by
    split
    · next e => subst e; rw [keptAxes_all]; rfl
    · next hne =>
      unfold keptAxes
      congr 1
      apply List.filter_congr
      intro d _
      exact decide_eq_decide.mpr (not_mem_redAxes hne h.2 d).symm
  simp only [this]

/-- The order in which the elements of result element `o` are combined: the listed axes like nested
loops, the last one innermost. -/
def order (shape axes o : List Int) : List (List Int) :=
  slab shape (redAxes shape.length axes)
    (place (keptAxes shape.length (redAxes shape.length axes)) o (shape.map (fun _ => 0)))

theorem unravel_congr {ld ld' : List (LoopDim Int)}
    (h : ld.map LoopDim.size = ld'.map LoopDim.size) :
    cells ld = cells ld' ∧ ∀ k, unravel ld k = unravel ld' k := by
  induction ld generalizing ld' with
  | nil => cases ld' <;> simp_all
  | cons d ds ih =>
    cases ld' with
    | nil => simp at h
    | cons e es =>
      simp only [List.map_cons, List.cons.injEq] at h
      obtain ⟨h1, h2⟩ := ih h.2
      exact ⟨by simp only [cells, h.1, h1], fun k => by simp only [unravel, h1, h2]⟩

/-- The output has one element per inner loop, and its index is the start of that loop. -/
theorem out_start {a out : Arr} {axes : List Int} (hax : GoodAxes a axes)
    (hout : out.shape = orUnit 1 (remaining axes a.shape)) :
    cells (ldOut out) =
      cells (ldOf a.shape (keptAxes a.dims.length (redAxes a.dims.length axes))) ∧
    ∀ k < cells (ldOut out), startIdx a (redAxes a.dims.length axes) k =
      place (keptAxes a.dims.length (redAxes a.dims.length axes)) (unravel (ldOut out) k)
        (a.dims.map (fun _ => 0)) := by
  have hr := remaining_eq hax.2 a.shape (shape_length a)
  rw [hr] at hout
  by_cases hk : keptAxes a.dims.length (redAxes a.dims.length axes) = []
  · rw [hk] at hout ⊢
    have hs : (ldOut out).map LoopDim.size = [1] := by rw [ldOut_sizes, hout]; rfl
    have hc : cells (ldOut out) = 1 := by
      have := (unravel_congr (ld := ldOut out) (ld' := [{ size := 1, stride := 0, reset := 0 }])
        (by rw [hs]; rfl)).1
      rw [this]; rfl
    refine ⟨by rw [hc]; rfl, fun k _ => ?_⟩
    rw [startIdx, hk]
    simp [place]
  · have hs : (ldOut out).map LoopDim.size =
        (ldOf a.shape (keptAxes a.dims.length (redAxes a.dims.length axes))).map LoopDim.size := by
      rw [ldOut_sizes, hout, ldOf_sizes, orUnit, if_neg (by simpa using hk)]
    obtain ⟨h1, h2⟩ := unravel_congr hs
    exact ⟨h1, fun k _ => by rw [startIdx, h2]⟩

theorem order_start {a out : Arr} {axes : List Int} (hax : GoodAxes a axes)
    (hout : out.shape = orUnit 1 (remaining axes a.shape)) {k : Nat} (hk : k < cells (ldOut out)) :
    slab a.shape (redAxes a.dims.length axes) (startIdx a (redAxes a.dims.length axes) k) =
      order a.shape axes (unravel (ldOut out) k) := by
  rw [(out_start hax hout).2 k hk, order, shape_length]
  congr 2
  simp [Arr.shape, Function.comp_def]

/-- `order` lists exactly the elements with the remaining indices, each once. -/
theorem order_enumerates {a : Arr} {axes o : List Int} (hax : GoodAxes a axes)
    (ho : ValidIdx (orUnit 1 (remaining axes a.shape)) o) :
    Enumerates a.shape axes o (order a.shape axes o) := by
  have hr := remaining_eq hax.2 a.shape (shape_length a)
  have hn := redAxes_nodup hax.1 hax.2
  have hb : ∀ d ∈ redAxes a.dims.length axes, d < a.shape.length := by
    intro d hd; rw [shape_length]; exact redAxes_mem hax.2 d hd
  have hkn := keptAxes_nodup a.dims.length (redAxes a.dims.length axes)
  have hkb : ∀ d ∈ keptAxes a.dims.length (redAxes a.dims.length axes), d < (a.shape.map (fun _ => (0 : Int))).length := by
    intro d hd; rw [mem_keptAxes] at hd; simpa [Arr.shape] using hd.1
  have hz : ∀ i, (a.shape.map (fun _ => (0 : Int))).getD i 0 = 0 := by
    intro i
    simp only [List.getD, List.getElem?_map]
    cases a.shape[i]? <;> simp
  rw [hr] at ho
  have hbase : Start a.shape (redAxes a.dims.length axes)
      (place (keptAxes a.dims.length (redAxes a.dims.length axes)) o (a.shape.map (fun _ => 0))) := by
    constructor
    · simp [place_length]
    · intro d hd
      rw [place_getD _ _ _ _ (by rw [mem_keptAxes]; tauto), hz]
    · intro i hi hd
      rw [shape_length] at hi
      have hik : i ∈ keptAxes a.dims.length (redAxes a.dims.length axes) := by
        rw [mem_keptAxes]; exact ⟨hi, hd⟩
      have hne : keptAxes a.dims.length (redAxes a.dims.length axes) ≠ [] := by
        intro e; rw [e] at hik; simp at hik
      rw [orUnit, if_neg (by simpa using hne)] at ho
      have h2 := place_map _ o (a.shape.map (fun _ => 0)) hkn
        (by have := ho.length_eq; simpa using this) hkb
      rw [← h2] at ho
      exact forall₂_getD_of ho i hik
  unfold order
  rw [shape_length]
  refine ⟨nodup_slab hbase hn hb, fun j => ?_⟩
  rw [mem_slab hbase hn hb]
  refine and_congr_right (fun hj => ?_)
  have hjl : j.length = a.dims.length := by rw [hj.length_eq, shape_length]
  rw [remaining_eq hax.2 j hjl]
  by_cases hk : keptAxes a.dims.length (redAxes a.dims.length axes) = []
  · rw [hk] at ho ⊢
    have ho' : o = [0] := by
      simp only [List.map_nil, orUnit, if_true] at ho
      cases o with
      | nil => simp [ValidIdx] at ho
      | cons x xs =>
        simp only [ValidIdx, List.forall₂_cons] at ho
        obtain ⟨h1, h2⟩ := ho
        cases xs with
        | nil => congr 1; omega
        | cons y ys => simp at h2
    refine ⟨fun _ => by simp [orUnit, ho'], fun _ i hi hd => ?_⟩
    exfalso
    have : i ∈ keptAxes a.dims.length (redAxes a.dims.length axes) := by
      rw [mem_keptAxes]; rw [shape_length] at hi; exact ⟨hi, hd⟩
    rw [hk] at this; simp at this
  · rw [orUnit, if_neg (by simpa using hk)] at ho
    have h2 := place_map _ o (a.shape.map (fun _ => 0)) hkn
      (by have := ho.length_eq; simpa using this) hkb
    rw [orUnit, if_neg (by simpa using hk)]
    constructor
    · intro hh
      rw [← h2]
      apply List.map_congr_left
      intro d hd
      rw [mem_keptAxes] at hd
      exact hh d (by rw [shape_length]; exact hd.1) hd.2
    · intro hh i hi hd
      rw [← hh]
      rw [shape_length] at hi
      have := place_map _ ((keptAxes a.dims.length (redAxes a.dims.length axes)).map (fun d => j.getD d 0))
        (a.shape.map (fun _ => 0)) hkn (by simp) hkb
      exact ((List.map_inj_left.mp this) i (by rw [mem_keptAxes]; exact ⟨hi, hd⟩)).symm

/-- The number of elements of a result. -/
theorem count_cells {a : Arr} (axes : List Int) (hwf : a.WF) :
    (reducedCount a (redAxes a.dims.length axes)).toNat =
      cells (ldOf a.shape (redAxes a.dims.length axes)) := by
  have := cells_eq (ldOf a.shape (redAxes a.dims.length axes)) (by
    intro d hd
    simp only [ldOf, List.mem_map] at hd
    obtain ⟨e, _, rfl⟩ := hd
    simp only [List.getD]
    cases h : a.shape[e]? with
    | none => simp
    | some s => exact shape_nonneg hwf s (List.mem_of_getElem? h))
  rw [ldOf_sizes] at this
  unfold reducedCount
  omega

theorem order_length {shape axes o : List Int} :
    (order shape axes o).length = cells (ldOf shape (redAxes shape.length axes)) := by
  simp [order, slab]

/-- `reduceInto` as a loop over the results. -/
theorem reduceInto_eq {a out : Arr} {axes : List Int} (hax : GoodAxes a axes) (hwf : a.WF)
    (howf : out.WF) (hout : out.shape = orUnit 1 (remaining axes a.shape))
    (visit : Heap V → A → Int → Outcome A) (emit : A → Int → Heap V → Outcome (Heap V)) (init : A)
    (h : Heap V) :
    reduceInto a out (allAxes a axes) visit emit init h =
    forLoop (cells (ldOut out)) (fun k h => do
      let r ← innerLoop a (redAxes a.dims.length axes) (visit h)
        (cells (ldOf a.shape (redAxes a.dims.length axes))) init
        (startIdx a (redAxes a.dims.length axes) k)
      emit r.1 (addr out.dims (unravel (ldOut out) k)) h) h := by
  unfold reduceInto
  rw [if_neg]
  · rw [redAxes_eq, count_cells axes hwf]
    have hnum : out.numel.toNat = cells (ldOut out) := by
      have := cells_eq (ldOut out) (by
        intro d hd
        have : d.size ∈ out.shape := by rw [← ldOut_sizes]; exact List.mem_map_of_mem hd
        exact shape_nonneg howf _ this)
      rw [ldOut_sizes] at this
      unfold Arr.numel
      omega
    rw [hnum]
    exact outer_eq a out _ visit emit _ init h (out_start hax hout).1 _ (Nat.le_refl _)
  · simp only [List.any_eq_true, decide_eq_true_eq, not_exists, not_and]
    intro d hd
    unfold allAxes at hd
    split at hd
    · obtain ⟨n, hn, rfl⟩ := List.mem_map.mp hd
      simp at hn
      omega
    · have := hax.2 d hd
      omega

/-- One result: fold over its elements, then `emit`. -/
theorem step_eq {a out : Arr} {axes : List Int} (hax : GoodAxes a axes)
    (hout : out.shape = orUnit 1 (remaining axes a.shape))
    (visit : Heap V → A → Int → Outcome A) (emit : A → Int → Heap V → Outcome (Heap V)) (init : A)
    (h : Heap V) (g : A → List Int → A)
    (hv : ∀ j, ValidIdx a.shape j → ∀ acc, visit h acc (addr a.dims j) = .ok (g acc j))
    {k : Nat} (hk : k < cells (ldOut out)) :
    (do
      let r ← innerLoop a (redAxes a.dims.length axes) (visit h)
        (cells (ldOf a.shape (redAxes a.dims.length axes))) init
        (startIdx a (redAxes a.dims.length axes) k)
      emit r.1 (addr out.dims (unravel (ldOut out) k)) h) =
    emit ((order a.shape axes (unravel (ldOut out) k)).foldl g init)
      (addr out.dims (unravel (ldOut out) k)) h := by
  have hs := startIdx_start a (redAxes a.dims.length axes)
    (by rw [← (out_start hax hout).1]; exact hk)
  obtain ⟨i, hi⟩ := innerLoop_eq a (redAxes a.dims.length axes) (visit h) init _ hs
    (redAxes_nodup hax.1 hax.2)
    (by intro d hd; rw [shape_length]; exact redAxes_mem hax.2 d hd) g hv
  rw [hi, order_start hax hout hk]
  rfl

theorem valid_nonneg {a : Arr} {axes : List Int} (hax : GoodAxes a axes) (hwf : a.WF) :
    ∀ s ∈ orUnit 1 (remaining axes a.shape), 0 ≤ s := by
  rw [remaining_eq hax.2 _ (shape_length a)]
  intro s hs
  unfold orUnit at hs
  split at hs
  · simp at hs; omega
  · obtain ⟨d, _, rfl⟩ := List.mem_map.mp hs
    simp only [List.getD]
    cases h : a.shape[d]? with
    | none => simp
    | some s => exact shape_nonneg hwf s (List.mem_of_getElem? h)

/-- A reduction with one result array. -/
theorem reduceNew_spec {a : Arr} {axes : List Int} (hax : GoodAxes a axes) (hwf : a.WF)
    (visit : Heap V → A → Int → Outcome A) (finish : A → Outcome V) (init : A) (junk : Int → V)
    (h : Heap V) (g : A → List Int → A)
    (hv : ∀ h', h.Frame h' → ∀ j, ValidIdx a.shape j → ∀ acc,
      visit h' acc (addr a.dims j) = .ok (g acc j))
    (R : List Int → V)
    (hfin : ∀ o, ValidIdx (orUnit 1 (remaining axes a.shape)) o →
      finish ((order a.shape axes o).foldl g init) = .ok (R o)) :
    Returns h (reduceNew a axes visit finish init junk h) (orUnit 1 (remaining axes a.shape)) R := by
  have hal := alloc_props h (outShape a axes) junk
    (by rw [outShape_eq hax]; exact valid_nonneg hax hwf)
  simp only at hal
  obtain ⟨hsh, howf, hdis, hmap, hblk, hnext, hframe⟩ := hal
  replace hsh := hsh.trans (outShape_eq hax)
  unfold reduceNew
  generalize alloc h (outShape a axes) junk = r at *
  obtain ⟨h1, out⟩ := r
  simp only at *
  rw [reduceInto_eq hax hwf howf hsh]
  have hvo : ∀ k < cells (ldOut out), ValidIdx (orUnit 1 (remaining axes a.shape))
      (unravel (ldOut out) k) := fun k hk => by
    rw [← hsh]; exact valid_unravel (ldOut_sizes out) hk
  obtain ⟨h2, e1, w⟩ := forLoop_inv (n := cells (ldOut out)) (s := h1)
    (body := fun k h => do
      let r ← innerLoop a (redAxes a.dims.length axes) (visit h)
        (cells (ldOf a.shape (redAxes a.dims.length axes))) init
        (startIdx a (redAxes a.dims.length axes) k)
      emit1 out finish r.1 (addr out.dims (unravel (ldOut out) k)) h)
    (fun n h2 => Wrote h1 h2 out.blk n (fun k => addr out.dims (unravel (ldOut out) k))
      (fun k => R (unravel (ldOut out) k)))
    (Wrote.refl _ _ _ _)
    (by
      intro k h2 hk w
      have hfr : h.Frame h2 := by
        intro b hb
        rw [← hframe b hb]
        funext i
        exact w.same b i (fun e => by omega)
      rw [step_eq hax hsh visit _ init h2 g (hv h2 hfr) hk]
      simp only [emit1, hfin _ (hvo k hk), Outcome.bind_ok]
      exact w.store (hmap _ (valid_unravel (ldOut_sizes out) hk))
        (fun j hj he => by
          have := hdis _ _ (valid_unravel (ldOut_sizes out) (by omega : j < cells (ldOut out)))
            (valid_unravel (ldOut_sizes out) hk) he
          have := unravel_inj (by omega) hk this
          omega))
  have hu := Wrote.updated (ldOut_sizes out) (A := R) w
  have hf := fresh_of_updated hframe hblk hnext hu w.next
  refine ⟨h2, out, by rw [e1]; rfl, hsh, hblk, hf.2.2, hf.1, hf.2.1⟩

/-- `B` is an outcome at which execution ends: an exception or undefined behaviour. -/
def Ends (B : (α : Type) → Outcome α) : Prop := ∀ (α β : Type) (f : α → Outcome β), (B α >>= f) = B β

theorem ends_throws (e : Err) : Ends fun _ => .throws e := fun _ _ _ => rfl

theorem ends_ub : Ends fun _ => .ub := fun _ _ _ => rfl

theorem forLoop_ends {B : (α : Type) → Outcome α} (hB : Ends B) {σ : Type} {n m : Nat}
    {body : Nat → σ → Outcome σ} {s s' : σ}
    (hm : m < n) (h1 : forLoop m body s = .ok s') (h2 : body m s' = B σ) :
    forLoop n body s = B σ := by
  induction n with
  | zero => omega
  | succ n ih =>
    rw [forLoop_succ]
    by_cases e' : m = n
    · subst e'; rw [h1]; exact h2
    · rw [ih (by omega)]; exact hB _ _ _

/-- A reduction ends where the computation of one element does. -/
theorem reduceNew_ends_at {V A : Type} {B : (α : Type) → Outcome α} (hB : Ends B) {a : Arr} {axes : List Int} (hax : GoodAxes a axes) (hwf : a.WF)
    (visit : Heap V → A → Int → Outcome A) (finish : A → Outcome V) (init : A) (junk : Int → V)
    (h : Heap V) (g : A → List Int → A)
    (hv : ∀ h', h.Frame h' → ∀ j, ValidIdx a.shape j → ∀ acc,
      visit h' acc (addr a.dims j) = .ok (g acc j))
    (hfin : ∀ o, ValidIdx (orUnit 1 (remaining axes a.shape)) o →
      finish ((order a.shape axes o).foldl g init) = B _ ∨
      ∃ v, finish ((order a.shape axes o).foldl g init) = .ok v)
    (o : List Int) (ho : ValidIdx (orUnit 1 (remaining axes a.shape)) o)
    (hbad : finish ((order a.shape axes o).foldl g init) = B _) :
    reduceNew a axes visit finish init junk h = B _ := by
  have hal := alloc_props h (outShape a axes) junk
    (by rw [outShape_eq hax]; exact valid_nonneg hax hwf)
  simp only at hal
  obtain ⟨hsh, howf, hdis, hmap, hblk, hnext, hframe⟩ := hal
  replace hsh := hsh.trans (outShape_eq hax)
  unfold reduceNew
  generalize alloc h (outShape a axes) junk = r at *
  obtain ⟨h1, out⟩ := r
  simp only at *
  rw [reduceInto_eq hax hwf howf hsh]
  have hbox : InBox (ldOut out) o := by rw [inBox_iff, ldOut_sizes, hsh]; exact ho
  have hex : ∃ k, k < cells (ldOut out) ∧
      finish ((order a.shape axes (unravel (ldOut out) k)).foldl g init) = B _ :=
    ⟨ravel (ldOut out) o, ravel_lt hbox, by rw [unravel_ravel hbox]; exact hbad⟩
  classical
  have hmin : ∀ j < Nat.find hex, ∃ v,
      finish ((order a.shape axes (unravel (ldOut out) j)).foldl g init) = .ok v := by
    intro j hj
    have hj' : j < cells (ldOut out) := by have := (Nat.find_spec hex).1; omega
    rcases hfin (unravel (ldOut out) j) (hsh ▸ valid_unravel (ldOut_sizes out) hj') with h | h
    · exact absurd ⟨by have := (Nat.find_spec hex).1; omega, h⟩ (Nat.find_min hex hj)
    · exact h
  obtain ⟨hm, hbad'⟩ := Nat.find_spec hex
  generalize Nat.find hex = m at hm hbad' hmin
  have hR : ∃ R : Nat → V, ∀ j < m,
      finish ((order a.shape axes (unravel (ldOut out) j)).foldl g init) = .ok (R j) := by
    refine ⟨fun j => if hj : j < m then (hmin j hj).choose else junk 0, fun j hj => ?_⟩
    simp only [dif_pos hj]
    exact (hmin j hj).choose_spec
  obtain ⟨R, hR⟩ := hR
  obtain ⟨h2, e1, w⟩ := forLoop_inv (n := m) (s := h1)
    (body := fun k h => do
      let r ← innerLoop a (redAxes a.dims.length axes) (visit h)
        (cells (ldOf a.shape (redAxes a.dims.length axes))) init
        (startIdx a (redAxes a.dims.length axes) k)
      emit1 out finish r.1 (addr out.dims (unravel (ldOut out) k)) h)
    (fun n h2 => Wrote h1 h2 out.blk n (fun k => addr out.dims (unravel (ldOut out) k)) R)
    (Wrote.refl _ _ _ _)
    (by
      intro k h2 hk w
      have hfr : h.Frame h2 := by
        intro b hb
        rw [← hframe b hb]
        funext i
        exact w.same b i (fun e => by omega)
      have hk' : k < cells (ldOut out) := by omega
      rw [step_eq hax hsh visit _ init h2 g (hv h2 hfr) hk']
      simp only [emit1, hR k hk, Outcome.bind_ok]
      exact w.store (hmap _ (valid_unravel (ldOut_sizes out) hk'))
        (fun j hj he => by
          have := hdis _ _ (valid_unravel (ldOut_sizes out) (by omega : j < cells (ldOut out)))
            (valid_unravel (ldOut_sizes out) hk') he
          have := unravel_inj (by omega) hk' this
          omega))
  have hfr : h.Frame h2 := by
    intro b hb
    rw [← hframe b hb]
    funext i
    exact w.same b i (fun e => by omega)
  rw [forLoop_ends hB hm e1 (by
    rw [step_eq hax hsh visit _ init h2 g (hv h2 hfr) hm]
    simp only [emit1, hbad']
    exact hB _ _ _)]
  exact hB _ _ _

/-- A reduction fails if the result of one element is an error. -/
theorem reduceNew_throws_at {V A : Type} {a : Arr} {axes : List Int} (hax : GoodAxes a axes) (hwf : a.WF)
    (visit : Heap V → A → Int → Outcome A) (finish : A → Outcome V) (init : A) (junk : Int → V)
    (h : Heap V) (g : A → List Int → A)
    (hv : ∀ h', h.Frame h' → ∀ j, ValidIdx a.shape j → ∀ acc,
      visit h' acc (addr a.dims j) = .ok (g acc j)) (e : Err)
    (hfin : ∀ o, ValidIdx (orUnit 1 (remaining axes a.shape)) o →
      finish ((order a.shape axes o).foldl g init) = .throws e ∨
      ∃ v, finish ((order a.shape axes o).foldl g init) = .ok v)
    (o : List Int) (ho : ValidIdx (orUnit 1 (remaining axes a.shape)) o)
    (hbad : finish ((order a.shape axes o).foldl g init) = .throws e) :
    reduceNew a axes visit finish init junk h = .throws e :=
  reduceNew_ends_at (ends_throws e) hax hwf visit finish init junk h g hv hfin o ho hbad

theorem reduceNew_throws {a : Arr} {axes : List Int} (hax : GoodAxes a axes) (hwf : a.WF)
    (visit : Heap V → A → Int → Outcome A) (finish : A → Outcome V) (init : A) (junk : Int → V)
    (h : Heap V) (g : A → List Int → A)
    (hv : ∀ h', h.Frame h' → ∀ j, ValidIdx a.shape j → ∀ acc,
      visit h' acc (addr a.dims j) = .ok (g acc j)) (e : Err)
    (hfin : ∀ acc, finish acc = .throws e ∨ ∃ v, finish acc = .ok v)
    (o : List Int) (ho : ValidIdx (orUnit 1 (remaining axes a.shape)) o)
    (hbad : finish ((order a.shape axes o).foldl g init) = .throws e) :
    reduceNew a axes visit finish init junk h = .throws e :=
  reduceNew_throws_at hax hwf visit finish init junk h g hv e (fun _ _ => hfin _) o ho hbad

/-- A reduction with two result arrays. -/
theorem reduceNew2_spec {a : Arr} {axes : List Int} (hax : GoodAxes a axes) (hwf : a.WF)
    (visit : Heap V → A → Int → Outcome A) (finish : A → Outcome (V × V)) (init : A)
    (junk1 junk2 : Int → V) (h : Heap V) (g : A → List Int → A)
    (hv : ∀ h', h.Frame h' → ∀ j, ValidIdx a.shape j → ∀ acc,
      visit h' acc (addr a.dims j) = .ok (g acc j))
    (R1 R2 : List Int → V)
    (hfin : ∀ o, ValidIdx (orUnit 1 (remaining axes a.shape)) o →
      finish ((order a.shape axes o).foldl g init) = .ok (R1 o, R2 o)) :
    Returns2 h (reduceNew2 a axes visit finish init junk1 junk2 h)
      (orUnit 1 (remaining axes a.shape)) R1 R2 := by
  have hnn := valid_nonneg hax hwf
  have hal1 := alloc_props h (outShape a axes) junk1 (by rw [outShape_eq hax]; exact hnn)
  have hal2 := alloc_props (alloc h (outShape a axes) junk1).1 (outShape a axes) junk2
    (by rw [outShape_eq hax]; exact hnn)
  have hdims : (alloc (alloc h (outShape a axes) junk1).1 (outShape a axes) junk2).2.dims =
    (alloc h (outShape a axes) junk1).2.dims := rfl
  simp only at hal1 hal2
  unfold reduceNew2
  generalize alloc h (outShape a axes) junk1 = r1 at *
  obtain ⟨h1, out⟩ := r1
  simp only at *
  generalize alloc h1 (outShape a axes) junk2 = r2 at *
  obtain ⟨h2, out2⟩ := r2
  simp only at *
  obtain ⟨hsh, howf, hdis, hmap, hblk, hnext, hframe⟩ := hal1
  obtain ⟨hsh2, howf2, hdis2, hmap2, hblk2, hnext2, hframe2⟩ := hal2
  replace hsh := hsh.trans (outShape_eq hax)
  replace hsh2 := hsh2.trans (outShape_eq hax)
  rw [reduceInto_eq hax hwf howf hsh]
  have hvo : ∀ k < cells (ldOut out), ValidIdx (orUnit 1 (remaining axes a.shape))
      (unravel (ldOut out) k) := fun k hk => by
    rw [← hsh]; exact valid_unravel (ldOut_sizes out) hk
  have hm1 : ∀ k < cells (ldOut out), h2.mem out.blk (addr out.dims (unravel (ldOut out) k)) ≠ none := by
    intro k hk
    rw [hframe2 _ (by omega)]
    exact hmap _ (valid_unravel (ldOut_sizes out) hk)
  have hm2 : ∀ k < cells (ldOut out), h2.mem out2.blk (addr out.dims (unravel (ldOut out) k)) ≠ none := by
    intro k hk
    rw [← hdims]
    exact hmap2 _ (by rw [hsh2]; exact hvo k hk)
  obtain ⟨h3, e1, hmid, w1, w2⟩ := forLoop_inv (n := cells (ldOut out)) (s := h2)
    (body := fun k h => do
      let r ← innerLoop a (redAxes a.dims.length axes) (visit h)
        (cells (ldOf a.shape (redAxes a.dims.length axes))) init
        (startIdx a (redAxes a.dims.length axes) k)
      emit2 out out2 finish r.1 (addr out.dims (unravel (ldOut out) k)) h)
    (fun n h3 => h3.next = h2.next ∧
      (∀ b, b ≠ out.blk → b ≠ out2.blk → h3.mem b = h2.mem b) ∧
      ∀ k < cells (ldOut out),
        h3.mem out.blk (addr out.dims (unravel (ldOut out) k)) ≠ none ∧
        h3.mem out2.blk (addr out.dims (unravel (ldOut out) k)) ≠ none ∧
        (k < n → h3.mem out.blk (addr out.dims (unravel (ldOut out) k)) =
            some (R1 (unravel (ldOut out) k)) ∧
          h3.mem out2.blk (addr out.dims (unravel (ldOut out) k)) =
            some (R2 (unravel (ldOut out) k))))
    ⟨rfl, fun _ _ _ => rfl, fun k hk => ⟨hm1 k hk, hm2 k hk, fun h0 => absurd h0 (by omega)⟩⟩
    (by
      intro k h3 hk ⟨hn, hs, hd⟩
      have hfr : h.Frame h3 := by
        intro b hb
        rw [hs b (by omega) (by omega), hframe2 b (by omega), hframe b hb]
      rw [step_eq hax hsh visit _ init h3 g (hv h3 hfr) hk]
      obtain ⟨d1, d2, _⟩ := hd k hk
      obtain ⟨x1, hx1⟩ := Option.ne_none_iff_exists'.mp d1
      obtain ⟨x2, hx2⟩ := Option.ne_none_iff_exists'.mp d2
      have hne : out2.blk ≠ out.blk := by omega
      have hinj : ∀ j < cells (ldOut out), addr out.dims (unravel (ldOut out) j) =
          addr out.dims (unravel (ldOut out) k) → j = k := by
        intro j hj he
        exact unravel_inj hj hk (hdis _ _ (valid_unravel (ldOut_sizes out) hj)
          (valid_unravel (ldOut_sizes out) hk) he)
      simp only [emit2, hfin _ (hvo k hk), Outcome.bind_ok, Heap.store, Buf.store_some hx1,
        Outcome.pure_eq, hne, if_false, Buf.store_some hx2]
      refine ⟨_, rfl, hn, ?_, ?_⟩
      · intro b hb1 hb2
        simp only [hb1, hb2, if_false]
        exact hs b hb1 hb2
      · intro j hj
        obtain ⟨j1, j2, j3⟩ := hd j hj
        simp only [hne.symm, if_false, if_true]
        by_cases e : addr out.dims (unravel (ldOut out) j) = addr out.dims (unravel (ldOut out) k)
        · have := hinj j hj e
          subst this
          simp
        · simp only [e, if_false]
          refine ⟨j1, j2, fun hjk => j3 ?_⟩
          have : j ≠ k := fun h => e (by rw [h])
          omega)
  refine ⟨h3, out, out2, by rw [e1]; rfl, hsh, hsh2, hblk, by omega, by omega, ?_, ?_, ?_⟩
  · intro idx hidx
    have hb : InBox (ldOut out) idx := by rw [inBox_iff, ldOut_sizes]; exact hidx
    have := ((w2 _ (ravel_lt hb)).2.2 (ravel_lt hb)).1
    rwa [unravel_ravel hb] at this
  · intro idx hidx
    rw [hsh2, ← hsh] at hidx
    have hb : InBox (ldOut out) idx := by rw [inBox_iff, ldOut_sizes]; exact hidx
    have := ((w2 _ (ravel_lt hb)).2.2 (ravel_lt hb)).2
    rw [unravel_ravel hb, ← hdims] at this
    exact this
  · intro b hb
    rw [w1 b (by omega) (by omega), hframe2 b (by omega), hframe b hb]

end Bliss.Stat
