import Verif.Stat.Model
import Verif.Stat.Spec
import Verif.Nd.Props
import Mathlib.Data.List.Nodup

/-! # The reduction loops enumerate the elements of every result -/

namespace Bliss.Stat

open Bliss.Nd

variable {V A : Type}

/-- Overwrite the listed positions. -/
def place : List Nat → List Int → List Int → List Int
  | d :: ds, v :: vs, idx => place ds vs (idx.set d v)
  | _, _, idx => idx

/-- Loop dimensions of the listed axes. -/
def ldOf (shape : List Int) (ds : List Nat) : List (LoopDim Int) :=
  ds.map fun d => { size := shape.getD d 0, stride := 0, reset := 0 }

theorem place_length (ds : List Nat) (vs idx : List Int) :
    (place ds vs idx).length = idx.length := by
  induction ds generalizing vs idx with
  | nil => simp [place]
  | cons d ds ih => cases vs <;> simp [place, ih]

theorem place_set (ds : List Nat) (vs idx : List Int) (d : Nat) (v : Int) (hd : d ∉ ds) :
    (place ds vs idx).set d v = place ds vs (idx.set d v) := by
  induction ds generalizing vs idx with
  | nil => simp [place]
  | cons e ds ih =>
    cases vs with
    | nil => simp [place]
    | cons w vs =>
      simp only [List.mem_cons, not_or] at hd
      simp only [place]
      rw [ih _ _ hd.2, List.set_comm w v (fun h => hd.1 h.symm)]

theorem place_getD (ds : List Nat) (vs idx : List Int) (i : Nat) (hi : i ∉ ds) :
    (place ds vs idx).getD i 0 = idx.getD i 0 := by
  induction ds generalizing vs idx with
  | nil => simp [place]
  | cons e ds ih =>
    cases vs with
    | nil => simp [place]
    | cons w vs =>
      simp only [List.mem_cons, not_or] at hi
      simp only [place]
      rw [ih _ _ hi.2]
      simp [List.getD, List.getElem?_set_ne (fun h => hi.1 h.symm)]

theorem getD_set_self (l : List Int) (d : Nat) (v : Int) (h : d < l.length) :
    (l.set d v).getD d 0 = v := by
  simp [List.getD, h]

theorem place_map (ds : List Nat) (vs idx : List Int) (hn : ds.Nodup) (hl : vs.length = ds.length)
    (hb : ∀ d ∈ ds, d < idx.length) : ds.map (fun d => (place ds vs idx).getD d 0) = vs := by
  induction ds generalizing vs idx with
  | nil => cases vs <;> simp_all
  | cons e ds ih =>
    cases vs with
    | nil => simp at hl
    | cons w vs =>
      obtain ⟨he, hn⟩ := List.nodup_cons.mp hn
      simp only [place, List.map_cons]
      rw [place_getD _ _ _ _ he, getD_set_self _ _ _ (hb e (by simp)),
        ih vs _ hn (by simpa using hl) (by intro d hd; simpa using hb d (by simp [hd]))]

theorem incAxes_place (shape : List Int) (ds : List Nat) (is idx : List Int) (hn : ds.Nodup)
    (hl : is.length = ds.length) (hb : ∀ d ∈ ds, d < idx.length) :
    incAxes shape ds (place ds is idx) =
      (place ds (odoA (ldOf shape ds) is 0).1 idx, (odoA (ldOf shape ds) is 0).2.2) := by
  induction ds generalizing is idx with
  | nil => cases is <;> simp [place, incAxes, odoA, ldOf]
  | cons d ds ih =>
    cases is with
    | nil => simp at hl
    | cons i is =>
      obtain ⟨he, hn⟩ := List.nodup_cons.mp hn
      have hd := hb d (by simp)
      have IH := ih is (idx.set d i) hn (by simpa using hl)
        (by intro e h; simpa using hb e (by simp [h]))
      have e1 : incAxes shape ds (place (d :: ds) (i :: is) idx) = _ := IH
      simp only [incAxes, ldOf, List.map_cons, odoA]
      simp only [e1, ldOf]
      by_cases hc : (odoA (ds.map fun d => ({ size := shape.getD d 0, stride := 0, reset := 0 } :
          LoopDim Int)) is 0).2.2 = true
      · simp only [hc, if_true]
        rw [place_getD _ _ _ _ he, getD_set_self _ _ _ hd]
        by_cases hs : i + 1 ≠ shape.getD d 0
        · rw [if_pos hs, if_pos hs]
          simp only [place, place_set _ _ _ _ _ he, List.set_set]
        · rw [if_neg hs, if_neg hs]
          simp only [place, place_set _ _ _ _ _ he, List.set_set]
      · simp only [Bool.not_eq_true] at hc
        simp only [hc, Bool.false_eq_true, if_false, place]

theorem ldOf_dot (shape : List Int) (ds : List Nat) (is : List Int) :
    dot (ldOf shape ds) is = 0 := by
  induction ds generalizing is with
  | nil => cases is <;> rfl
  | cons d ds ih =>
    cases is with
    | nil => rfl
    | cons i is =>
      simp only [ldOf, List.map_cons, dot, smul_zero, zero_add]
      exact ih is

theorem pos_of_cells_pos {ld : List (LoopDim Int)} (h : 0 < cells ld) : ∀ d ∈ ld, 0 < d.size := by
  intro d hd
  by_contra hc
  have := cells_zero_of_mem hd (by omega)
  omega

/-- One step of the increment along the listed axes. -/
theorem incAxes_step (shape : List Int) (ds : List Nat) (idx : List Int) (hn : ds.Nodup)
    (hb : ∀ d ∈ ds, d < idx.length) {k : Nat} (hk : k < cells (ldOf shape ds))
    (hk1 : k + 1 < cells (ldOf shape ds)) :
    (incAxes shape ds (place ds (unravel (ldOf shape ds) k) idx)).1 =
      place ds (unravel (ldOf shape ds) (k + 1)) idx := by
  rw [incAxes_place _ _ _ _ hn (by rw [unravel_length]; simp [ldOf]) hb]
  have hr : ResetA (ldOf shape ds) := by
    intro d hd
    refine ⟨pos_of_cells_pos (by omega) d hd, ?_⟩
    simp only [ldOf, List.mem_map] at hd
    obtain ⟨e, _, rfl⟩ := hd
    simp
  have := odoA_step hr 0 hk
  rw [ldOf_dot, add_zero, if_pos hk1] at this
  rw [this]

theorem validIdx_iff (shape idx : List Int) :
    ValidIdx shape idx ↔ idx.length = shape.length ∧
      ∀ i < shape.length, 0 ≤ idx.getD i 0 ∧ idx.getD i 0 < shape.getD i 0 := by
  induction shape generalizing idx with
  | nil => cases idx <;> simp [ValidIdx]
  | cons s ss ih =>
    cases idx with
    | nil => simp [ValidIdx]
    | cons i is =>
      have := ih is
      simp only [ValidIdx] at this ⊢
      simp only [List.forall₂_cons, this, List.length_cons, Nat.add_right_cancel_iff]
      constructor
      · rintro ⟨h1, h2, h3⟩
        refine ⟨h2, ?_⟩
        intro k hk
        cases k with
        | zero => simpa using h1
        | succ k => simpa using h3 k (by omega)
      · rintro ⟨h2, h3⟩
        refine ⟨by simpa using h3 0 (by omega), h2, ?_⟩
        intro k hk
        simpa using h3 (k + 1) (by omega)

theorem ext_getD {l m : List Int} (hl : l.length = m.length)
    (h : ∀ i < l.length, l.getD i 0 = m.getD i 0) : l = m := by
  apply List.ext_getElem hl
  intro i h1 h2
  have := h i h1
  simpa [List.getD, h1, h2] using this

theorem linIdx_addr {dims : List Dim} {idx : List Int} (h : ValidIdx (dims.map Dim.size) idx) :
    linIdx dims idx = .ok (addr dims idx) := by
  induction dims generalizing idx with
  | nil => cases idx <;> simp [linIdx, addr]
  | cons d ds ih =>
    cases idx with
    | nil => simp [ValidIdx] at h
    | cons i is =>
      simp only [ValidIdx, List.map_cons, List.forall₂_cons] at h
      obtain ⟨⟨h1, h2⟩, h3⟩ := h
      have h4 : d.size ≠ 0 := by omega
      simp only [linIdx, h4, if_false, ih h3, Outcome.bind_ok, Outcome.pure_eq, addr]
      rw [Int.tmod_eq_of_lt h1 h2]

theorem linOut_addr (dims : List Dim) (idx : List Int) : linOut dims idx = addr dims idx := by
  induction dims generalizing idx with
  | nil => rfl
  | cons d ds ih => cases idx <;> simp [linOut, addr, ih]

/-! ## The inner loop -/

/-- The elements one inner loop visits, in order. -/
def slab (shape : List Int) (ds : List Nat) (base : List Int) : List (List Int) :=
  (List.range (cells (ldOf shape ds))).map (fun k => place ds (unravel (ldOf shape ds) k) base)

/-- `base` is a valid start for the axes `ds`: zero there, in range elsewhere. -/
structure Start (shape : List Int) (ds : List Nat) (base : List Int) : Prop where
  len : base.length = shape.length
  zero : ∀ d ∈ ds, base.getD d 0 = 0
  ok : ∀ i < shape.length, i ∉ ds → 0 ≤ base.getD i 0 ∧ base.getD i 0 < shape.getD i 0

theorem ldOf_sizes (shape : List Int) (ds : List Nat) :
    (ldOf shape ds).map LoopDim.size = ds.map (fun d => shape.getD d 0) := by
  simp [ldOf, Function.comp_def]

theorem place_zeros (shape : List Int) (ds : List Nat) (base : List Int)
    (hz : ∀ d ∈ ds, base.getD d 0 = 0) (hb : ∀ d ∈ ds, d < base.length) :
    place ds (zeros (ldOf shape ds)) base = base := by
  induction ds generalizing base with
  | nil => simp [place]
  | cons d ds ih =>
    have h1 : base.set d 0 = base := by
      apply ext_getD (by simp)
      intro i hi
      by_cases e : i = d
      · subst e; rw [getD_set_self _ _ _ (hb i (by simp)), hz i (by simp)]
      · simp [List.getD, List.getElem?_set_ne (fun h => e h.symm)]
    simp only [ldOf, List.map_cons, zeros, place]
    rw [h1]
    exact ih base (fun e he => hz e (by simp [he])) (fun e he => hb e (by simp [he]))

theorem forall₂_map_getD {shape : List Int} {ds : List Nat} {j : List Int}
    (h : ∀ d ∈ ds, 0 ≤ j.getD d 0 ∧ j.getD d 0 < shape.getD d 0) :
    ValidIdx (ds.map (fun d => shape.getD d 0)) (ds.map (fun d => j.getD d 0)) := by
  simp only [ValidIdx, List.forall₂_map_left_iff, List.forall₂_map_right_iff]
  rw [List.forall₂_same]
  exact h

theorem forall₂_getD_of {shape : List Int} {ds : List Nat} {j : List Int}
    (h : ValidIdx (ds.map (fun d => shape.getD d 0)) (ds.map (fun d => j.getD d 0))) :
    ∀ d ∈ ds, 0 ≤ j.getD d 0 ∧ j.getD d 0 < shape.getD d 0 := by
  simp only [ValidIdx, List.forall₂_map_left_iff, List.forall₂_map_right_iff] at h
  rw [List.forall₂_same] at h
  exact h

theorem place_valid {shape : List Int} {ds : List Nat} {base : List Int} (hs : Start shape ds base)
    (hn : ds.Nodup) (hb : ∀ d ∈ ds, d < shape.length) {k : Nat} (hk : k < cells (ldOf shape ds)) :
    ValidIdx shape (place ds (unravel (ldOf shape ds) k) base) := by
  rw [validIdx_iff]
  refine ⟨by rw [place_length, hs.len], ?_⟩
  intro i hi
  by_cases hd : i ∈ ds
  · have h1 := valid_unravel (ldOf_sizes shape ds) hk
    have h2 := place_map ds (unravel (ldOf shape ds) k) base hn
      (by rw [unravel_length]; simp [ldOf]) (by intro d h; rw [hs.len]; exact hb d h)
    rw [← h2] at h1
    exact forall₂_getD_of h1 i hd
  · rw [place_getD _ _ _ _ hd]
    exact hs.ok i hi hd

theorem mem_slab {shape : List Int} {ds : List Nat} {base : List Int} (hs : Start shape ds base)
    (hn : ds.Nodup) (hb : ∀ d ∈ ds, d < shape.length) (j : List Int) :
    j ∈ slab shape ds base ↔
      ValidIdx shape j ∧ ∀ i < shape.length, i ∉ ds → j.getD i 0 = base.getD i 0 := by
  simp only [slab, List.mem_map, List.mem_range]
  constructor
  · rintro ⟨k, hk, rfl⟩
    exact ⟨place_valid hs hn hb hk, fun i _ hi => place_getD _ _ _ _ hi⟩
  · rintro ⟨hv, he⟩
    obtain ⟨hl, hv'⟩ := (validIdx_iff _ _).mp hv
    have hbox : InBox (ldOf shape ds) (ds.map (fun d => j.getD d 0)) := by
      rw [inBox_iff, ldOf_sizes]
      exact forall₂_map_getD (fun d hd => hv' d (hb d hd))
    refine ⟨ravel (ldOf shape ds) (ds.map (fun d => j.getD d 0)), ravel_lt hbox, ?_⟩
    rw [unravel_ravel hbox]
    have hb' : ∀ d ∈ ds, d < base.length := by intro d h; rw [hs.len]; exact hb d h
    apply ext_getD (by rw [place_length, hs.len, hl])
    intro i hi
    rw [place_length, hs.len] at hi
    by_cases hd : i ∈ ds
    · have := place_map ds (ds.map (fun d => j.getD d 0)) base hn (by simp) hb'
      exact (List.map_inj_left.mp this) i hd
    · rw [place_getD _ _ _ _ hd]
      exact (he i hi hd).symm

theorem nodup_slab {shape : List Int} {ds : List Nat} {base : List Int} (hs : Start shape ds base)
    (hn : ds.Nodup) (hb : ∀ d ∈ ds, d < shape.length) : (slab shape ds base).Nodup := by
  unfold slab
  refine List.Nodup.map_on ?_ List.nodup_range
  intro x hx y hy he
  simp only [List.mem_range] at hx hy
  have hb' : ∀ d ∈ ds, d < base.length := by intro d h; rw [hs.len]; exact hb d h
  have h1 := place_map ds (unravel (ldOf shape ds) x) base hn
    (by rw [unravel_length]; simp [ldOf]) hb'
  have h2 := place_map ds (unravel (ldOf shape ds) y) base hn
    (by rw [unravel_length]; simp [ldOf]) hb'
  rw [he] at h1
  exact unravel_inj hx hy (h1.symm.trans h2)

theorem foldl_range_succ {β : Type} (f : β → Nat → β) (b : β) (n : Nat) :
    (List.range (n + 1)).foldl f b = f ((List.range n).foldl f b) n := by
  rw [List.range_succ, List.foldl_append]; rfl

/-- The inner loop folds over the slab. -/
theorem innerLoop_eq (a : Arr) (ds : List Nat) (visit : A → Int → Outcome A) (init : A)
    (base : List Int) (hs : Start a.shape ds base) (hn : ds.Nodup)
    (hb : ∀ d ∈ ds, d < a.shape.length) (g : A → List Int → A)
    (hv : ∀ j, ValidIdx a.shape j → ∀ acc, visit acc (addr a.dims j) = .ok (g acc j)) :
    ∃ idx', innerLoop a ds visit (cells (ldOf a.shape ds)) init base =
      .ok ((slab a.shape ds base).foldl g init, idx') := by
  have hb' : ∀ d ∈ ds, d < base.length := by intro d h; rw [hs.len]; exact hb d h
  unfold innerLoop
  obtain ⟨st, h1, h2, _⟩ := forLoop_inv (n := cells (ldOf a.shape ds))
    (body := fun _ (st : A × List Int) => do
      let l ← linIdx a.dims st.2
      let acc ← visit st.1 l
      pure (acc, (incAxes a.shape ds st.2).1)) (s := (init, base))
    (fun n st => st.1 = (List.range n).foldl
        (fun acc k => g acc (place ds (unravel (ldOf a.shape ds) k) base)) init ∧
      (n < cells (ldOf a.shape ds) → st.2 = place ds (unravel (ldOf a.shape ds) n) base))
    ⟨rfl, fun _ => by rw [unravel_zero, place_zeros _ _ _ hs.zero hb']⟩
    (by
      rintro n ⟨acc, idx⟩ hk ⟨e1, e2⟩
      have e2' := e2 hk
      simp only at e1 e2'
      subst e2'
      have hval := place_valid hs hn hb hk
      refine ⟨(g acc (place ds (unravel (ldOf a.shape ds) n) base),
          (incAxes a.shape ds (place ds (unravel (ldOf a.shape ds) n) base)).1), ?_, ?_, ?_⟩
      · simp only [linIdx_addr hval, Outcome.bind_ok, hv _ hval, Outcome.pure_eq]
      · rw [foldl_range_succ, e1]
      · intro hk1
        exact incAxes_step _ _ _ hn hb' hk hk1)
  refine ⟨st.2, ?_⟩
  rw [h1]
  simp only [slab, List.foldl_map]
  rw [← h2]

/-! ## The outer loop -/

theorem keptAxes_nodup (n : Nat) (ds : List Nat) : (keptAxes n ds).Nodup :=
  List.nodup_range.filter _

theorem mem_keptAxes (n : Nat) (ds : List Nat) (d : Nat) : d ∈ keptAxes n ds ↔ d < n ∧ d ∉ ds := by
  simp [keptAxes]

/-- Start of the `k`-th inner loop. -/
def startIdx (a : Arr) (ds : List Nat) (k : Nat) : List Int :=
  place (keptAxes a.dims.length ds) (unravel (ldOf a.shape (keptAxes a.dims.length ds)) k)
    (a.dims.map (fun _ => 0))

theorem getD_zeros (l : List Dim) (i : Nat) : (l.map (fun _ => (0 : Int))).getD i 0 = 0 := by
  simp only [List.getD, List.getElem?_map]
  cases l[i]? <;> simp

theorem shape_length (a : Arr) : a.shape.length = a.dims.length := by simp [Arr.shape]

theorem startIdx_start (a : Arr) (ds : List Nat) {k : Nat}
    (hk : k < cells (ldOf a.shape (keptAxes a.dims.length ds))) :
    Start a.shape ds (startIdx a ds k) := by
  constructor
  · simp [startIdx, place_length, Arr.shape]
  · intro d hd
    rw [startIdx, place_getD _ _ _ _ (by rw [mem_keptAxes]; tauto), getD_zeros]
  · intro i hi hd
    rw [shape_length] at hi
    have h1 := valid_unravel (ldOf_sizes a.shape (keptAxes a.dims.length ds)) hk
    have h2 := place_map (keptAxes a.dims.length ds)
      (unravel (ldOf a.shape (keptAxes a.dims.length ds)) k) (a.dims.map (fun _ => 0))
      (keptAxes_nodup _ _) (by rw [unravel_length]; simp [ldOf])
      (by intro d h; rw [mem_keptAxes] at h; simpa using h.1)
    rw [← h2] at h1
    exact forall₂_getD_of h1 i (by rw [mem_keptAxes]; exact ⟨hi, hd⟩)

theorem place_range (vs idx : List Int) (h : vs.length = idx.length) :
    place (List.range idx.length) vs idx = vs := by
  have hm := place_map (List.range idx.length) vs idx List.nodup_range (by simpa using h)
    (by intro d hd; simpa using hd)
  apply ext_getD (by rw [place_length, h])
  intro i hi
  rw [place_length] at hi
  have h3 := congrArg (fun l => l.getD i 0) hm
  rw [← h3]
  simp [List.getD, hi]

/-- Loop dimensions of the output. -/
abbrev ldOut (out : Arr) : List (LoopDim Int) := ldOf out.shape (List.range out.dims.length)

theorem ldOut_sizes (out : Arr) : (ldOut out).map LoopDim.size = out.shape := by
  rw [ldOf_sizes]
  apply ext_getD (by simp [Arr.shape])
  intro i hi
  have : i < out.dims.length := by simpa using hi
  simp [List.getD, Arr.shape, this]

theorem out_step (out : Arr) {k : Nat} (hk : k < cells (ldOut out))
    (hk1 : k + 1 < cells (ldOut out)) :
    (incAxes out.shape (List.range out.dims.length) (unravel (ldOut out) k)).1 =
      unravel (ldOut out) (k + 1) := by
  have hl : ∀ k, (unravel (ldOut out) k).length = out.dims.length := by
    intro k; rw [unravel_length]; simp [ldOut, ldOf]
  have hz : (out.dims.map (fun _ => (0 : Int))).length = out.dims.length := by simp
  have := incAxes_step out.shape (List.range out.dims.length) (out.dims.map (fun _ => 0))
    List.nodup_range (by intro d hd; simpa using hd) hk hk1
  have e : ∀ k, place (List.range out.dims.length) (unravel (ldOut out) k)
      (out.dims.map (fun _ => (0 : Int))) = unravel (ldOut out) k := by
    intro k
    have := place_range (unravel (ldOut out) k) (out.dims.map (fun _ => (0 : Int)))
      (by rw [hl k, hz])
    rwa [hz] at this
  rw [e k, e (k + 1)] at this
  exact this

/-- The outer loop with its indices in closed form. -/
theorem outer_eq (a out : Arr) (ds : List Nat) (visit : Heap V → A → Int → Outcome A)
    (emit : A → Int → Heap V → Outcome (Heap V)) (n : Nat) (init : A) (h : Heap V)
    (hcells : cells (ldOut out) = cells (ldOf a.shape (keptAxes a.dims.length ds))) (N : Nat)
    (hN : N ≤ cells (ldOut out)) :
    (forLoop N (fun _ st => outerBody a out ds visit emit n init st)
      (h, out.dims.map (fun _ => 0), a.dims.map (fun _ => 0)) >>= fun r => pure r.1) =
    forLoop N (fun k h => do
      let r ← innerLoop a ds (visit h) n init (startIdx a ds k)
      emit r.1 (addr out.dims (unravel (ldOut out) k)) h) h := by
  suffices H : ∀ N ≤ cells (ldOut out),
      (forLoop N (fun k h => do
        let r ← innerLoop a ds (visit h) n init (startIdx a ds k)
        emit r.1 (addr out.dims (unravel (ldOut out) k)) h) h = .ub ∧
       forLoop N (fun _ st => outerBody a out ds visit emit n init st)
        (h, out.dims.map (fun _ => 0), a.dims.map (fun _ => 0)) = .ub) ∨
      (∃ e, forLoop N (fun k h => do
        let r ← innerLoop a ds (visit h) n init (startIdx a ds k)
        emit r.1 (addr out.dims (unravel (ldOut out) k)) h) h = .throws e ∧
       forLoop N (fun _ st => outerBody a out ds visit emit n init st)
        (h, out.dims.map (fun _ => 0), a.dims.map (fun _ => 0)) = .throws e) ∨
      (∃ h' i j, forLoop N (fun k h => do
        let r ← innerLoop a ds (visit h) n init (startIdx a ds k)
        emit r.1 (addr out.dims (unravel (ldOut out) k)) h) h = .ok h' ∧
       forLoop N (fun _ st => outerBody a out ds visit emit n init st)
        (h, out.dims.map (fun _ => 0), a.dims.map (fun _ => 0)) = .ok (h', i, j) ∧
        (N < cells (ldOut out) → i = unravel (ldOut out) N ∧ j = startIdx a ds N)) by
    rcases H N hN with ⟨e1, e2⟩ | ⟨e, e1, e2⟩ | ⟨h', i, j, e1, e2, _⟩
    · rw [e1, e2]; rfl
    · rw [e1, e2]; rfl
    · rw [e1, e2]; rfl
  intro N
  induction N with
  | zero =>
    intro _
    refine Or.inr (Or.inr ⟨h, _, _, rfl, rfl, fun h0 => ⟨?_, ?_⟩⟩)
    · rw [unravel_zero, zeros_eq, List.map_const', List.map_const']; simp [ldOf]
    · rw [startIdx, unravel_zero, place_zeros]
      · intro d _; exact getD_zeros _ _
      · intro d hd; rw [mem_keptAxes] at hd; simpa using hd.1
  | succ N ih =>
    intro hN
    rw [forLoop_succ, forLoop_succ]
    rcases ih (by omega) with ⟨e1, e2⟩ | ⟨e, e1, e2⟩ | ⟨h', i, j, e1, e2, e3⟩
    · rw [e1, e2]; exact Or.inl ⟨rfl, rfl⟩
    · rw [e1, e2]; exact Or.inr (Or.inl ⟨e, rfl, rfl⟩)
    · rw [e1, e2]
      obtain ⟨rfl, rfl⟩ := e3 (by omega)
      simp only [Outcome.bind_ok, outerBody, linOut_addr]
      cases hin : innerLoop a ds (visit h') n init (startIdx a ds N) with
      | ub => exact Or.inl ⟨rfl, rfl⟩
      | throws e => exact Or.inr (Or.inl ⟨e, rfl, rfl⟩)
      | ok r =>
        simp only [Outcome.bind_ok]
        cases hem : emit r.1 (addr out.dims (unravel (ldOut out) N)) h' with
        | ub => exact Or.inl ⟨rfl, rfl⟩
        | throws e => exact Or.inr (Or.inl ⟨e, rfl, rfl⟩)
        | ok h'' =>
          refine Or.inr (Or.inr ⟨h'', _, _, rfl, rfl, fun hlt => ⟨?_, ?_⟩⟩)
          · exact out_step out (by omega) hlt
          · rw [startIdx, startIdx]
            exact incAxes_step _ _ _ (keptAxes_nodup _ _)
              (by intro d hd; rw [mem_keptAxes] at hd; simpa using hd.1)
              (by omega) (by omega)

end Bliss.Stat
