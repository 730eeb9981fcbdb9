import Verif.Gpu.CompProps
import Mathlib.Data.List.Pairwise

/-!
# The groups of peaks of the GPU component search, described by distances alone (C77)
-/

namespace Bliss.Gpu

open Bliss.Comp

/-! ## Specification -/

section Spec
variable {F : Type} [Sub F] [Div F] [LinearOrder F] [OfNat F 2]

/-- From `x` the ascent goes to `y`: `x` is above half the threshold, its whole neighbourhood lies
in the plane, and `y` is the strongest cell of the neighbourhood and stronger than `x`; of several
such cells the one of lowest channel, then of lowest drift. -/
structure Climbs (s : Search F) (x y : Coord) : Prop where
  above : s.thr / 2 < s.snr x
  inside : ∀ z, InHood s.dist x z → s.grid.has z
  near : InHood s.dist x y
  stronger : s.snr x < s.snr y
  strongest : ∀ z, InHood s.dist x z → s.snr z ≤ s.snr y
  first : ∀ z, InHood s.dist x z → (z.2 < y.2 ∨ (z.2 = y.2 ∧ z.1 < y.1)) → s.snr z < s.snr y

/-- The ascent from `x` ends in the peak `p`. -/
def AscendsTo (s : Search F) (x p : Coord) : Prop :=
  Relation.ReflTransGen (Climbs s) x p ∧ s.grid.has p ∧ IsPeak s p

omit [Sub F] [Div F] [LinearOrder F] [OfNat F 2] in
/-- The merge looks at `y` from `x`: it is in the neighbourhood and in the plane, and the loops get
there without meeting the edge of the plane first. -/
def Compared (s : Search F) (x y : Coord) : Prop :=
  InHood s.dist x y ∧ s.grid.has y ∧ s.dist ≤ x.2 ∧ s.dist - |y.2 - x.2| ≤ x.1

/-- Two peaks whose regions touch. -/
def Touching (s : Search F) (p q : Coord) : Prop :=
  ∃ x y, s.grid.has x ∧ AscendsTo s x p ∧ AscendsTo s y q ∧ Compared s x y

/-- Peaks connected through touching regions. -/
def Group (s : Search F) : Coord → Coord → Prop := Relation.EqvGen (Touching s)

end Spec

/-! ## The loops -/

theorem intRange_succ {a b : Int} (h : a < b) : intRange a b = a :: intRange (a + 1) b := by
  have e : (b - a).toNat = (b - (a + 1)).toNat + 1 := by omega
  simp only [intRange, e, List.range_succ_eq_map, List.map_cons, List.map_map]
  congr 1
  · simp
  · refine List.map_congr_left fun k _ => ?_
    simp only [Function.comp]
    push_cast
    omega

theorem mem_takeWhile_intRange {a b u n f : Int} :
    f ∈ (intRange a b).takeWhile (fun f => decide (0 ≤ u + f ∧ u + f < n)) ↔
      a ≤ f ∧ f < b ∧ 0 ≤ u + a ∧ u + f < n := by
  induction hk : (b - a).toNat generalizing a with
  | zero =>
    have : intRange a b = [] := by simp [intRange, hk]
    rw [this]
    simp only [List.takeWhile_nil, List.not_mem_nil, false_iff]
    omega
  | succ k ih =>
    rw [intRange_succ (by omega), List.takeWhile_cons]
    split
    · rename_i h
      simp only [decide_eq_true_eq] at h
      rw [List.mem_cons, ih (by omega)]
      constructor
      · rintro (rfl | h'); · omega
        omega
      · intro h'
        by_cases e : f = a
        · exact .inl e
        · exact .inr (by omega)
    · rename_i h
      simp only [decide_eq_true_eq] at h
      simp only [List.not_mem_nil, false_iff]
      omega

section
variable {F : Type} [Sub F] [Div F] [LinearOrder F] [OfNat F 0] [OfNat F 2]
variable {s : Search F} {G : Nat}

omit [Sub F] [Div F] [LinearOrder F] [OfNat F 0] [OfNat F 2] in
theorem mem_mergeHood {x y : Coord} : s.grid.has x → (y ∈ mergeHood s x ↔ Compared s x y) := by
  intro hx
  simp only [mergeHood, List.mem_flatMap, List.mem_map, mem_takeWhile_intRange, Compared, InHood,
    Grid.has] at *
  constructor
  · rintro ⟨f, ⟨h1, h2, h3, h4⟩, d, ⟨h5, h6, h7, h8⟩, rfl⟩
    simp only [Int.abs_eq_natAbs] at *
    have e : x.2 + f - x.2 = f := by omega
    have e' : x.1 + d - x.1 = d := by omega
    simp only [e, e']
    omega
  · rintro ⟨⟨h1, h2, h3, h4⟩, ⟨h5, h6, h7, h8⟩, h9, h10⟩
    simp only [Int.abs_eq_natAbs] at *
    exact ⟨y.2 - x.2, ⟨by omega, by omega, by omega, by omega⟩, y.1 - x.1,
      ⟨by omega, by omega, by omega, by omega⟩, by ext <;> simp⟩

/-- Position in the order of the loops. -/
def Earlier (a b : Coord) : Prop := a.2 < b.2 ∨ (a.2 = b.2 ∧ a.1 < b.1)

theorem intRange_sorted (a b : Int) : (intRange a b).Pairwise (· < ·) := by
  unfold intRange
  rw [List.pairwise_map]
  refine List.pairwise_lt_range.imp ?_
  intro x y h
  omega

theorem l1Offsets_sorted (d : Int) : (l1Offsets d).Pairwise Earlier := by
  unfold l1Offsets
  rw [List.pairwise_flatMap]
  constructor
  · intro f _
    rw [List.pairwise_map]
    exact (intRange_sorted _ _).imp fun h => .inr ⟨rfl, h⟩
  · refine (intRange_sorted _ _).imp ?_
    intro f f' h x hx y hy
    simp only [List.mem_map] at hx hy
    obtain ⟨_, _, rfl⟩ := hx
    obtain ⟨_, _, rfl⟩ := hy
    exact .inl h

theorem hood_sorted (x : Coord) : (hood s x).Pairwise Earlier := by
  unfold hood
  rw [List.pairwise_map]
  refine (l1Offsets_sorted _).imp ?_
  intro a b h
  unfold Earlier shift at *
  simp only
  omega

theorem scanHood_first {ys : List Coord} {b b' : Bool} {best best' : F} {m m' : Int}
    (h : scanHood s ys (b, best, m) = some (b', best', m')) (hlt : best < best') :
    ∃ pre y post, ys = pre ++ y :: post ∧ m' = lin s.grid y ∧ best' = s.snr y ∧
      ∀ z ∈ pre, s.snr z < best' := by
  induction ys generalizing b best m with
  | nil =>
    simp only [scanHood, Option.some.injEq, Prod.mk.injEq] at h
    exact absurd hlt (by rw [h.2.1]; exact lt_irrefl _)
  | cons y ys ih =>
    unfold scanHood at h
    by_cases hy : s.grid.has y
    · simp only [hy, if_true] at h
      split at h
      · rename_i hb
        obtain ⟨h1, h2, h3⟩ := scanHood_some h
        rcases h3 with ⟨e1, _, e3⟩ | ⟨_, e2, _⟩
        · exact ⟨[], y, ys, rfl, e3, e1, by simp⟩
        · obtain ⟨pre, z, post, q1, q2, q3, q4⟩ := ih h e2
          exact ⟨y :: pre, z, post, by rw [q1]; rfl, q2, q3, List.forall_mem_cons.2 ⟨e2, q4⟩⟩
      · rename_i hb
        obtain ⟨pre, z, post, q1, q2, q3, q4⟩ := ih h hlt
        exact ⟨y :: pre, z, post, by rw [q1]; rfl, q2, q3,
          List.forall_mem_cons.2 ⟨(not_lt.1 hb).trans_lt hlt, q4⟩⟩
    · simp [hy] at h

theorem Climbs.unique {x y y' : Coord} (h : Climbs s x y) (h' : Climbs s x y') : y = y' := by
  by_contra hne
  have h1 := le_antisymm (h.strongest y' h'.near) (h'.strongest y h.near)
  have : Earlier y y' ∨ Earlier y' y := by
    unfold Earlier
    by_contra hc
    exact hne (by ext <;> omega)
  rcases this with e | e
  · exact absurd (h'.first y h.near e) (by rw [h1]; exact lt_irrefl _)
  · exact absurd (h.first y' h'.near e) (by rw [h1]; exact lt_irrefl _)

theorem toward_climbs {x : Coord} {m : Int} (h : classify s x = .toward m) :
    ∃ y, m = lin s.grid y ∧ Climbs s x y := by
  obtain ⟨h1, h2, _⟩ := classify_toward h
  unfold classify at h
  rw [if_pos h1] at h
  cases hsc : scanHood s ((l1Offsets s.dist).map (shift x)) (true, s.snr x, lin s.grid x) with
  | none => rw [hsc] at h; cases h
  | some r =>
    obtain ⟨b', best', m'⟩ := r
    obtain ⟨k1, k2, k3⟩ := scanHood_some hsc
    rw [hsc] at h
    rcases k3 with ⟨e1, rfl, _⟩ | ⟨rfl, e2, _⟩
    · simp only at h; split at h <;> cases h
    · simp only [Class.toward.injEq] at h
      subst h
      obtain ⟨pre, y, post, q1, q2, q3, q4⟩ := scanHood_first hsc e2
      change hood s x = _ at q1
      have hsort := hood_sorted (s := s) x
      rw [q1, List.pairwise_append] at hsort
      have hy : y ∈ hood s x := by rw [q1]; simp
      refine ⟨y, q2, h1, fun z hz => h2 z (mem_hood_iff.2 hz), mem_hood_iff.1 hy, q3 ▸ e2,
        fun z hz => q3 ▸ k2 z (mem_hood_iff.2 hz), fun z hz hlt => ?_⟩
      have hz' := mem_hood_iff.2 hz
      rw [q1, List.mem_append, List.mem_cons] at hz'
      rcases hz' with hz' | rfl | hz'
      · exact q3 ▸ q4 z hz'
      · omega
      · have := (List.pairwise_cons.1 hsort.2.1).1 z hz'
        unfold Earlier at this
        omega

theorem climbs_iff {x y : Coord} : Climbs s x y ↔
    s.grid.has y ∧ classify s x = .toward (lin s.grid y) := by
  constructor
  · intro h
    refine ⟨h.inside y h.near, ?_⟩
    cases hc : classify s x with
    | peak =>
      have := (isPeak_iff.2 hc).2.2 y h.near
      exact absurd h.stronger (not_lt.2 this.2)
    | toward m =>
      obtain ⟨y', rfl, h'⟩ := toward_climbs hc
      rw [h.unique h']
    | skip =>
      unfold classify at hc
      rw [if_pos h.above] at hc
      cases hsc : scanHood s ((l1Offsets s.dist).map (shift x)) (true, s.snr x, lin s.grid x) with
      | none =>
        obtain ⟨z, hz, hn⟩ := scanHood_none.1 hsc
        exact absurd (h.inside z (mem_hood_iff.1 hz)) hn
      | some r =>
        obtain ⟨b', best', m'⟩ := r
        obtain ⟨k1, k2, k3⟩ := scanHood_some hsc
        rw [hsc] at hc
        rcases k3 with ⟨e1, rfl, _⟩ | ⟨rfl, e2, _⟩
        · have := k2 y (mem_hood_iff.2 h.near)
          rw [e1] at this
          exact absurd h.stronger (not_lt.2 this)
        · cases hc
  · rintro ⟨hy, hc⟩
    obtain ⟨y', e, h'⟩ := toward_climbs hc
    rw [lin_inj hy (h'.inside y' h'.near) e]
    exact h'

theorem leads_iff {n r : Nat} (hn : n < numel s) (hr : r < numel s) :
    Leads s n r ↔ AscendsTo s (cellAt s.grid n) (cellAt s.grid r) := by
  constructor
  · intro h
    clear hn
    have hp := h.is_peak
    refine ⟨?_, numel_cell hp.1, isPeak_iff.2 hp.2⟩
    induction h with
    | peak => exact .refl
    | @toward n m r hn hc hr' ih =>
      refine .head (b := cellAt s.grid m) ?_ (ih hr hr'.is_peak)
      exact climbs_iff.2 ⟨numel_cell hr'.lt, by rw [lin_cellAt]; exact hc⟩
  · rintro ⟨h, _, hp⟩
    generalize hx : cellAt s.grid n = x at h
    induction h using Relation.ReflTransGen.head_induction_on generalizing n with
    | refl =>
      have : (n : Int) = r := by
        have := congrArg (lin s.grid) hx
        rwa [lin_cellAt, lin_cellAt] at this
      have : n = r := by exact_mod_cast this
      subst this
      exact .peak hr (isPeak_iff.1 hp)
    | @head x y hxy _ ih =>
      obtain ⟨hy, hc⟩ := climbs_iff.1 hxy
      obtain ⟨m, hm, e1, e2⟩ := has_lin hy
      rw [e2, ← hx] at hc
      exact .toward hn hc (ih hm e1)

theorem touch_iff {r r' : Nat} (hr : r < numel s) (hr' : r' < numel s) :
    Touch s r r' ↔ Touching s (cellAt s.grid r) (cellAt s.grid r') := by
  constructor
  · rintro ⟨n, n', h1, h2, h3⟩
    exact ⟨_, _, numel_cell h1.lt, (leads_iff h1.lt hr).1 h1, (leads_iff h2.lt hr').1 h2,
      (mem_mergeHood (numel_cell h1.lt)).1 h3⟩
  · rintro ⟨x, y, hx, h1, h2, h3⟩
    obtain ⟨n, hn, rfl⟩ := has_cellAt hx
    obtain ⟨n', hn', rfl⟩ := has_cellAt h3.2.1
    exact ⟨n, n', (leads_iff hn hr).2 h1, (leads_iff hn' hr').2 h2, (mem_mergeHood hx).2 h3⟩

theorem joined_group {r r' : Nat} (h : Joined s r r') :
    Group s (cellAt s.grid r) (cellAt s.grid r') := by
  induction h with
  | rel x y h =>
    obtain ⟨_, _, h1, h2, _⟩ := id h
    exact .rel _ _ ((touch_iff h1.is_peak.1 h2.is_peak.1).1 h)
  | refl x => exact .refl _
  | symm _ _ _ ih => exact .symm _ _ ih
  | trans _ _ _ _ _ ih ih' => exact .trans _ _ _ ih ih'

theorem group_joined {x y : Coord} (h : Group s x y) :
    x = y ∨ ∃ r r' : Nat, r < numel s ∧ r' < numel s ∧ cellAt s.grid r = x ∧
      cellAt s.grid r' = y ∧ Joined s r r' := by
  induction h with
  | rel x y h =>
    obtain ⟨_, _, _, h1, h2, _⟩ := id h
    obtain ⟨r, hr, rfl⟩ := has_cellAt h1.2.1
    obtain ⟨r', hr', rfl⟩ := has_cellAt h2.2.1
    exact .inr ⟨r, r', hr, hr', rfl, rfl, .rel _ _ ((touch_iff hr hr').2 h)⟩
  | refl x => exact .inl rfl
  | symm _ _ _ ih =>
    rcases ih with rfl | ⟨r, r', hr, hr', e, e', hj⟩
    · exact .inl rfl
    · exact .inr ⟨r', r, hr', hr, e', e, .symm _ _ hj⟩
  | trans _ _ _ _ _ ih ih' =>
    rcases ih with rfl | ⟨r, r', hr, hr', e, e', hj⟩
    · exact ih'
    · rcases ih' with rfl | ⟨q, q', hq, hq', f, f', hj'⟩
      · exact .inr ⟨r, r', hr, hr', e, e', hj⟩
      · have : (r' : Int) = q := by
          have := congrArg (lin s.grid) (e'.trans f.symm)
          rwa [lin_cellAt, lin_cellAt] at this
        have : r' = q := by exact_mod_cast this
        subst this
        exact .inr ⟨r, q', hr, hq', e, f', .trans _ _ _ hj hj'⟩

/-- **C77.** Of every connected group of peaks exactly one cell is reported, and it is preferred to
every other peak of the group. The groups are described by distances alone: each cell above half
the threshold belongs to the peak in which the steepest ascent from it ends, and two peaks are
connected when the merge compares a cell of one with a cell of the other. -/
theorem C77_one_per_group (hd : 2 ≤ s.dist) (hG : 0 < G) {stale : Bool} {out : List (GpuHit F)}
    (h : Reports s G stale out) {x : Coord} (hx : s.grid.has x) (hp : IsPeak s x) :
    ∃ p, Group s x p ∧ (∃ a ∈ out, a.indexMax = p) ∧
      ∀ q, Group s x q → q = p ∨ (Preferred s p q ∧ ¬ ∃ a ∈ out, a.indexMax = q) := by
  obtain ⟨n, hn, rfl⟩ := has_cellAt hx
  obtain ⟨r, ⟨hs, hj⟩, _⟩ := one_survivor hn (isPeak_iff.1 hp)
  obtain ⟨r1, ⟨hj1, ha1⟩, hu⟩ := C77_one_per_component hd hG h hn hp
  have hr1 : r = r1 := hu r ⟨hj, (reports_mem hd hG h _).2 ⟨r, hs, rfl⟩⟩
  subst hr1
  refine ⟨cellAt s.grid r, joined_group hj, ha1, fun q hq => ?_⟩
  have hnq : ∃ m : Nat, m < numel s ∧ cellAt s.grid m = q ∧ Joined s n m := by
    rcases group_joined hq with e | ⟨k, k', hk, hk', e, e', hj'⟩
    · exact ⟨n, hn, e, .refl _⟩
    · have : (k : Int) = n := by
        have := congrArg (lin s.grid) e
        rwa [lin_cellAt, lin_cellAt] at this
      have : k = n := by exact_mod_cast this
      subst this
      exact ⟨k', hk', e', hj'⟩
  obtain ⟨m, hm, rfl, hjm⟩ := hnq
  rcases hs.2 m (.trans _ _ _ (.symm _ _ hj) hjm) with e | e
  · exact .inl (by rw [e])
  · refine .inr ⟨(prefer_iff hs.1.1 hm).1 e, fun ha => ?_⟩
    have := hu m ⟨hjm, ha⟩
    subst this
    rcases e with e | e
    · exact absurd e (lt_irrefl _)
    · exact absurd e.2 (lt_irrefl _)

theorem lowerEdge_extent {lab : Buf Int} {P : Coord → Prop}
    (hP : ∀ x, s.grid.has x → ∃ v, lab.load (lin s.grid x) = .ok v ∧ (1 < v ↔ P x)) {d : Int}
    (hd : 0 ≤ d) (hd' : d < s.grid.drifts) (fuel : Nat) (e : Int) (he : 1 ≤ e)
    (he' : e ≤ s.grid.chans) {r : Int} (h : lowerEdge s.grid lab d fuel e = .ok r) :
    0 ≤ r ∧ r < e ∧ (∀ f, r < f → f < e → P (d, f)) ∧ (r = 0 ∨ ¬ P (d, r)) := by
  induction fuel generalizing e with
  | zero => cases h
  | succ fuel ih =>
    obtain ⟨v, h1, h3⟩ := hP (d, e - 1) ⟨hd, hd', by dsimp only; omega, by dsimp only; omega⟩
    simp only [lowerEdge, h1, Outcome.bind_ok] at h
    by_cases hc : 1 < v ∧ 0 < e - 1
    · rw [if_pos hc] at h
      obtain ⟨a1, a2, a3, a4⟩ := ih (e - 1) (by omega) (by omega) h
      refine ⟨a1, by omega, fun f hf hf' => ?_, a4⟩
      by_cases hfe : f = e - 1
      · rw [hfe]; exact h3.1 hc.1
      · exact a3 f hf (by omega)
    · rw [if_neg hc] at h
      obtain rfl := Outcome.ok.inj h
      refine ⟨by omega, by omega, fun f hf hf' => by omega, ?_⟩
      by_cases hv : 1 < v
      · left; omega
      · exact .inr fun hp => hv (h3.2 hp)

theorem upperEdge_extent {lab : Buf Int} {P : Coord → Prop}
    (hP : ∀ x, s.grid.has x → ∃ v, lab.load (lin s.grid x) = .ok v ∧ (1 < v ↔ P x)) {d : Int}
    (hd : 0 ≤ d) (hd' : d < s.grid.drifts) (fuel : Nat) (e : Int) (he : 0 ≤ e + 1)
    (he' : e + 1 < s.grid.chans) {r : Int} (h : upperEdge s.grid lab d fuel e = .ok r) :
    e < r ∧ r < s.grid.chans ∧ (∀ f, e < f → f < r → P (d, f)) ∧
      (r = s.grid.chans - 1 ∨ ¬ P (d, r)) := by
  induction fuel generalizing e with
  | zero => cases h
  | succ fuel ih =>
    obtain ⟨v, h1, h3⟩ := hP (d, e + 1) ⟨hd, hd', by dsimp only; omega, by dsimp only; omega⟩
    simp only [upperEdge, h1, Outcome.bind_ok] at h
    by_cases hc : 1 < v ∧ e + 1 < s.grid.chans - 1
    · rw [if_pos hc] at h
      obtain ⟨a1, a2, a3, a4⟩ := ih (e + 1) (by omega) (by omega) h
      refine ⟨by omega, a2, fun f hf hf' => ?_, a4⟩
      by_cases hfe : f = e + 1
      · rw [hfe]; exact h3.1 hc.1
      · exact a3 f (by omega) hf'
    · rw [if_neg hc] at h
      obtain rfl := Outcome.ok.inj h
      refine ⟨by omega, by omega, fun f hf hf' => by omega, ?_⟩
      by_cases hv : 1 < v
      · left; omega
      · exact .inr fun hp => hv (h3.2 hp)

/-- **C77.** What a reported protohit says: the power, noise and flag counts of its peak (the count of
rolloff flags is always 0), and in the peak's drift the band between the nearest channels on either
side from which the ascent ends in no peak (or the outermost channels of the plane); its center is
the middle and its width the distance of the two. -/
theorem C77_reported_extent (hd : 2 ≤ s.dist) (hG : 0 < G) {stale : Bool} {out : List (GpuHit F)}
    (h : Reports s G stale out) {a : GpuHit F} (ha : a ∈ out) :
    ∃ lo hi : Int, 0 ≤ lo ∧ lo < a.indexMax.2 ∧ a.indexMax.2 < hi ∧ hi < s.grid.chans ∧
      (∀ f, lo < f → f < hi → ∃ p, AscendsTo s (a.indexMax.1, f) p) ∧
      (lo = 0 ∨ ¬ ∃ p, AscendsTo s (a.indexMax.1, lo) p) ∧
      (hi = s.grid.chans - 1 ∨ ¬ ∃ p, AscendsTo s (a.indexMax.1, hi) p) ∧
      a.indexCenter = (a.indexMax.1, (lo + hi).tdiv 2) ∧ a.binwidth = hi - lo ∧
      a.maxIntegration = s.val a.indexMax ∧ a.noise = s.noise a.indexMax.1 ∧
      a.rfi = ((s.rfi a.indexMax).1, (s.rfi a.indexMax).2.1, 0) := by
  obtain ⟨L, lab, μ, hnd, hmem, hl, hf⟩ := reports_spec hd hG h
  obtain ⟨i, hi, rfl⟩ := List.mem_iff_getElem.1 ha
  have hiL : i < L.length := hf.length_eq ▸ hi
  have c := (List.forall₂_iff_get.1 hf).2 i hiL hi
  simp only [List.get_eq_getElem] at c
  have hm : L[i] ∈ L := List.getElem_mem hiL
  have hs := ((hmem _).1 hm).1
  have hlab := hl ⟨_, hm⟩
  generalize L[i] = n at *
  generalize out[i] = a at *
  have hP : ∀ x, s.grid.has x → ∃ v, lab.load (lin s.grid x) = .ok v ∧
      (1 < v ↔ ∃ p, AscendsTo s x p) := by
    intro x hx
    obtain ⟨m, hm', rfl⟩ := has_cellAt hx
    obtain ⟨v, hv, hfin⟩ := hlab m hm'
    refine ⟨v, by rw [lin_cellAt]; simp [Buf.load, hv], ?_⟩
    rcases hfin with ⟨r, k, h1, h2, rfl⟩ | ⟨h1, rfl⟩
    · refine iff_of_true (by omega) ⟨_, (leads_iff hm' ?_).1 h1⟩
      exact h1.is_peak.1
    · refine iff_of_false (by omega) ?_
      rintro ⟨p, hp⟩
      obtain ⟨r, hr, rfl⟩ := has_cellAt hp.2.1
      exact h1 ⟨r, (leads_iff hm' hr).2 hp⟩
  obtain ⟨h1, h2, h3, h4⟩ := peak_interior hd hs.2
  have hself : ∃ p, AscendsTo s (cellAt s.grid n) p :=
    ⟨_, .refl, numel_cell hs.1, isPeak_iff.2 hs.2⟩
  unfold collectOne at c
  simp only [Int.toNat_natCast] at c
  cases hlo : lowerEdge s.grid lab (cellAt s.grid n).1 (s.grid.chans + 1) (cellAt s.grid n).2 with
  | throws e => rw [hlo] at c; cases c
  | ub => rw [hlo] at c; cases c
  | ok lo =>
  cases hhi : upperEdge s.grid lab (cellAt s.grid n).1 (s.grid.chans + 1) (cellAt s.grid n).2 with
  | throws e => rw [hlo, hhi] at c; cases c
  | ub => rw [hlo, hhi] at c; cases c
  | ok hi' =>
  rw [hlo, hhi] at c
  obtain rfl := Outcome.ok.inj c
  obtain ⟨a1, a2, a3, a4⟩ := lowerEdge_extent hP h1 h2 _ _ h3 (by omega) hlo
  obtain ⟨b1, b2, b3, b4⟩ := upperEdge_extent hP h1 h2 _ _ (by omega) h4 hhi
  refine ⟨lo, hi', a1, a2, b1, b2, fun f hf1 hf2 => ?_, a4, b4, rfl, rfl, rfl, rfl, rfl⟩
  rcases lt_trichotomy f (cellAt s.grid n).2 with hlt | heq | hgt
  · exact a3 f hf1 hlt
  · rw [heq]; exact hself
  · exact b3 f hgt hf2

end

/-! ## A concrete plane -/

/-- A 6×8 plane with a peak of SNR 30 at (2, 2), one of SNR 25 at (2, 5) and a bridge between. -/
def bridged : Search Int where
  grid := ⟨6, 8⟩
  val := fun c => if c = (2, 2) then 30 else if c = (2, 3) then 20 else if c = (2, 4) then 22
    else if c = (2, 5) then 25 else 0
  rfi := fun _ => (1, 2, 3)
  floor := 0
  noise := fun _ => 1
  thr := 10
  dist := 2

theorem bridged_touch : Touching bridged (2, 2) (2, 5) := by
  have p1 : IsPeak bridged (2, 2) := isPeak_iff.2 (by decide +kernel)
  have p2 : IsPeak bridged (2, 5) := isPeak_iff.2 (by decide +kernel)
  refine ⟨(2, 3), (2, 4), by decide, ⟨.single (climbs_iff.2 ⟨by decide, by decide +kernel⟩),
    by decide, p1⟩, ⟨.single (climbs_iff.2 ⟨by decide, by decide +kernel⟩), by decide, p2⟩, ?_⟩
  simp [Compared, InHood, Grid.has, bridged, show |(1 : Int)| = 1 from rfl]

/-- The search on this plane returns; of the two peaks it reports one, the stronger. -/
example : ∃ out, Reports bridged 3 true out ∧ (∃ a ∈ out, a.indexMax = (2, 2)) ∧
    ¬ ∃ a ∈ out, a.indexMax = (2, 5) := by
  obtain ⟨-, out, h⟩ := C79_memory_safe_partial (s := bridged) (cap := 12) (by decide) (G := 3)
    (by decide) rfl (by unfold Roomy; decide +kernel) true
  have hg : Group bridged (2, 2) (2, 5) := .rel _ _ bridged_touch
  have hall : ∀ q, Preferred bridged q (2, 2) → False := by
    intro q hq
    have h30 : bridged.snr (2, 2) = 30 := rfl
    have hle : bridged.snr q ≤ 30 ∧ (bridged.snr q = 30 → q = (2, 2)) := by
      have : bridged.snr q = bridged.val q := by simp [Search.snr, bridged]
      rw [this]
      simp only [bridged]
      split
      · rename_i e; exact ⟨by omega, fun _ => e⟩
      · split <;> [skip; split <;> [skip; split]] <;> exact ⟨by omega, by intro h; omega⟩
    rcases hq with hq | ⟨hq, hq'⟩
    · rw [h30] at hq; omega
    · have := hle.2 (hq.trans h30)
      subst this
      omega
  obtain ⟨p, h1, h2, h3⟩ := C77_one_per_group (by decide) (by decide) h (x := (2, 2)) (by decide)
    (isPeak_iff.2 (by decide +kernel))
  have hp : (2, 2) = p := by
    rcases h3 (2, 2) (.refl _) with e | ⟨e, _⟩
    · exact e
    · exact absurd e (hall p)
  subst hp
  refine ⟨out, h, h2, ?_⟩
  rcases h3 (2, 5) hg with e | ⟨_, e⟩
  · cases e
  · exact e

end Bliss.Gpu
