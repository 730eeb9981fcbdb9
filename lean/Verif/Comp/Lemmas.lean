import Verif.Comp.Bfs
import Verif.Comp.Spec
import Mathlib.Algebra.Order.Group.Abs
import Mathlib.Algebra.Order.Group.Int
import Mathlib.Algebra.Order.Group.Unbundled.Int

/-! # The modelled searches are instances of the abstract one -/

set_option linter.unusedSectionVars false

namespace Bliss.Comp

/-! ## Binary mask -/

def binarySys (g : Grid) (nbh : List Coord) : Sys where
  g := g
  member := fun _ => true
  seedOk := fun _ => true
  N := fun c x => x ∈ nbh.map (shift c)
  push := fun _ c => (nbh.map (shift c)).filter (fun x => decide (g.has x))
  M := nbh.length

@[simp] theorem binarySys_g (g : Grid) (nbh : List Coord) : (binarySys g nbh).g = g := rfl

theorem binarySys_ok (g : Grid) (nbh : List Coord) : (binarySys g nbh).Ok where
  push_sub := by
    intro T c x h
    have := List.mem_filter.1 h
    exact ⟨this.1, by simpa using this.2⟩
  push_all := by
    intro T c x h1 h2 _
    exact List.mem_filter.2 ⟨h1, by simpa using h2⟩
  push_len := by
    intro T c
    refine (List.length_filter_le _ _).trans ?_
    simp [binarySys]

theorem mem_shift {nbh : List Coord} {c x : Coord} : x ∈ nbh.map (shift c) ↔ Neighbour nbh c x := by
  constructor
  · intro h
    obtain ⟨o, ho, rfl⟩ := List.mem_map.1 h
    exact ⟨o, ho, rfl, rfl⟩
  · rintro ⟨o, ho, h1, h2⟩
    exact List.mem_map.2 ⟨o, ho, Prod.ext h1.symm h2.symm⟩

def nz (data : Coord → Nat) : Coord → Bool := fun c => decide (data c > 0)

theorem nz_put (data : Coord → Nat) (c : Coord) : nz (put data c 0) = put (nz data) c false := by
  funext x
  by_cases h : x = c <;> simp [nz, put, h]

theorem binaryWhile_eq {g : Grid} {nbh : List Coord} :
    ∀ fuel data q locs T' locs', (binarySys g nbh).bfs fuel (nz data) q locs = .ok (T', locs') →
      ∃ data', binaryWhile g nbh fuel data q locs = .ok (data', locs') ∧ nz data' = T' := by
  intro fuel
  induction fuel with
  | zero =>
    intro data q locs T' locs' h
    cases q with
    | nil =>
      simp only [Sys.bfs, Outcome.ok.injEq, Prod.mk.injEq] at h
      exact ⟨data, by simp [binaryWhile, h.2], h.1⟩
    | cons c q => simp [Sys.bfs] at h
  | succ fuel ih =>
    intro data q locs T' locs' h
    cases q with
    | nil =>
      simp only [Sys.bfs, Outcome.ok.injEq, Prod.mk.injEq] at h
      exact ⟨data, by simp [binaryWhile, h.2], h.1⟩
    | cons c q =>
      by_cases hc : g.has c
      · have hc' : (binarySys g nbh).g.has c := hc
        by_cases hT : data c > 0
        · have hT' : nz data c = true := by simpa [nz] using hT
          have hm : (binarySys g nbh).member c = true := rfl
          simp only [Sys.bfs, if_pos hc', hT', hm, if_true] at h
          rw [← nz_put] at h
          obtain ⟨d', h1, h2⟩ := ih _ _ _ _ _ h
          refine ⟨d', ?_, h2⟩
          simp only [binaryWhile, Grid.read, if_pos hc, Outcome.bind_ok, if_pos hT]
          exact h1
        · have hT' : nz data c = false := by simpa [nz] using hT
          simp only [Sys.bfs, if_pos hc', hT'] at h
          obtain ⟨d', h1, h2⟩ := ih _ _ _ _ _ (by simpa using h)
          refine ⟨d', ?_, h2⟩
          simp only [binaryWhile, Grid.read, if_pos hc, Outcome.bind_ok, if_neg hT]
          exact h1
      · have hc' : ¬ (binarySys g nbh).g.has c := hc
        simp [Sys.bfs, hc] at h

theorem binaryScan_eq {g : Grid} {nbh : List Coord} :
    ∀ n c data comps comps',
      (binarySys g nbh).scan (1 + g.drifts * g.chans * nbh.length) n c (nz data) comps = .ok comps' →
      binaryScan g nbh n c data (comps.map Prod.snd) = .ok (comps'.map Prod.snd) := by
  intro n
  induction n with
  | zero =>
    intro c data comps comps' h
    simp only [Sys.scan, Outcome.ok.injEq] at h
    simp [binaryScan, h]
  | succ n ih =>
    intro c data comps comps' h
    by_cases hc : g.has c
    · have hc' : (binarySys g nbh).g.has c := hc
      by_cases hT : data c > 0
      · have hT' : nz data c = true := by simpa [nz] using hT
        have hm : (binarySys g nbh).seedOk c = true := rfl
        simp only [Sys.scan, if_pos hc', hT', hm, Bool.and_self, if_true] at h
        cases hb : (binarySys g nbh).bfs (1 + g.drifts * g.chans * nbh.length) (nz data) [c] [] with
        | ok r =>
          obtain ⟨T', locs⟩ := r
          obtain ⟨d', h1, h2⟩ := binaryWhile_eq _ _ _ _ _ _ hb
          rw [hb] at h
          simp only [Outcome.bind_ok] at h
          rw [← h2] at h
          have := ih _ _ _ _ h
          simp only [binaryScan, Grid.read, if_pos hc, Outcome.bind_ok, if_pos hT, h1]
          simpa using this
        | throws e => rw [hb] at h; simp at h
        | ub => rw [hb] at h; simp at h
      · have hT' : nz data c = false := by simpa [nz] using hT
        simp only [Sys.scan, if_pos hc', hT', Bool.false_and] at h
        have := ih _ _ _ _ (by simpa using h)
        simp only [binaryScan, Grid.read, if_pos hc, Outcome.bind_ok, if_neg hT]
        exact this
    · have hc' : ¬ (binarySys g nbh).g.has c := hc
      simp [Sys.scan, hc] at h

theorem findBinary_spec (g : Grid) (mask : Coord → Nat) (nbh : List Coord) :
    ∃ comps, findBinary g mask nbh = .ok (comps.map Prod.snd) ∧
      Found (binarySys g nbh) (nz mask) comps := by
  obtain ⟨comps, h1, h2⟩ := scan_spec (binarySys_ok g nbh) (nz mask)
    (fuel := 1 + g.drifts * g.chans * nbh.length) (Nat.le_refl _)
  exact ⟨comps, binaryScan_eq _ _ _ [] _ h1, h2⟩

/-! ## Threshold -/

section
variable {F : Type} [Sub F] [Div F] [LT F] [DecidableLT F] [OfNat F 0] [OfNat F 2]

def threshSys (s : Search F) : Sys where
  g := s.grid
  member := fun c => decide (s.thr / 2 < s.snr c)
  seedOk := fun c => decide (s.thr < s.snr c)
  N := fun c x => x ∈ (l1Offsets s.dist).map (shift c)
  push := fun T c => ((l1Offsets s.dist).map (shift c)).filter (fun x => decide (s.grid.has x) && T x)
  M := (l1Offsets s.dist).length

@[simp] theorem threshSys_g (s : Search F) : (threshSys s).g = s.grid := rfl

theorem threshSys_ok (s : Search F) : (threshSys s).Ok where
  push_sub := by
    intro T c x h
    have := List.mem_filter.1 h
    simp only [Bool.and_eq_true, decide_eq_true_eq] at this
    exact ⟨this.1, this.2.1⟩
  push_all := by
    intro T c x h1 h2 h3
    exact List.mem_filter.2 ⟨h1, by rw [h3]; simpa using h2⟩
  push_len := by
    intro T c
    refine (List.length_filter_le _ _).trans ?_
    simp [threshSys]

def unv (visited : Coord → Nat) : Coord → Bool := fun c => decide (visited c = 0)

theorem unv_put (data : Coord → Nat) (c : Coord) (n : Nat) :
    unv (put data c (n + 1)) = put (unv data) c false := by
  funext x
  by_cases h : x = c <;> simp [unv, put, h]

theorem threshWhile_eq {s : Search F} {seed : Coord} {p0 : Protohit F} :
    ∀ fuel data q locs T' locs', (threshSys s).bfs fuel (unv data) q locs = .ok (T', locs') →
      ∃ data', threshWhile s seed fuel data q (locs.foldl (s.add seed) p0) =
          .ok (data', locs'.foldl (s.add seed) p0) ∧ unv data' = T' := by
  intro fuel
  induction fuel with
  | zero =>
    intro data q locs T' locs' h
    cases q with
    | nil =>
      simp only [Sys.bfs, Outcome.ok.injEq, Prod.mk.injEq] at h
      exact ⟨data, by simp [threshWhile, h.2], h.1⟩
    | cons c q => simp [Sys.bfs] at h
  | succ fuel ih =>
    intro data q locs T' locs' h
    cases q with
    | nil =>
      simp only [Sys.bfs, Outcome.ok.injEq, Prod.mk.injEq] at h
      exact ⟨data, by simp [threshWhile, h.2], h.1⟩
    | cons c q =>
      by_cases hc : s.grid.has c
      · have hc' : (threshSys s).g.has c := hc
        by_cases hT : data c = 0
        · have hT' : unv data c = true := by simpa [unv] using hT
          by_cases hm : s.thr / 2 < s.snr c
          · have hm' : (threshSys s).member c = true := by simpa [threshSys] using hm
            simp only [Sys.bfs, if_pos hc', hT', hm', if_true] at h
            rw [← unv_put data c (data c)] at h
            obtain ⟨d', h1, h2⟩ := ih _ _ _ _ _ h
            refine ⟨d', ?_, h2⟩
            simp only [threshWhile, Grid.read, if_pos hc, Outcome.bind_ok, if_pos hT, if_pos hm]
            rw [List.foldl_append] at h1
            exact h1
          · have hm' : (threshSys s).member c = false := by simpa [threshSys] using hm
            simp only [Sys.bfs, if_pos hc', hT', hm', if_true] at h
            rw [← unv_put data c (data c)] at h
            obtain ⟨d', h1, h2⟩ := ih _ _ _ _ _ (by simpa using h)
            refine ⟨d', ?_, h2⟩
            simp only [threshWhile, Grid.read, if_pos hc, Outcome.bind_ok, if_pos hT, if_neg hm]
            exact h1
        · have hT' : unv data c = false := by simpa [unv] using hT
          simp only [Sys.bfs, if_pos hc', hT'] at h
          obtain ⟨d', h1, h2⟩ := ih _ _ _ _ _ (by simpa using h)
          refine ⟨d', ?_, h2⟩
          simp only [threshWhile, Grid.read, if_pos hc, Outcome.bind_ok, if_neg hT]
          exact h1
      · have hc' : ¬ (threshSys s).g.has c := hc
        simp [Sys.bfs, hc] at h

/-- The cluster reported for the cells `A.2` collected from the seed `A.1`. -/
def report (s : Search F) (fltMin : F) (A : Coord × List Coord) : Protohit F :=
  finishHit (A.2.foldl (s.add A.1) (freshHit fltMin))

theorem threshScan_eq {s : Search F} {fltMin : F} :
    ∀ n c data comps comps',
      (threshSys s).scan (1 + s.grid.drifts * s.grid.chans * (l1Offsets s.dist).length) n c
        (unv data) comps = .ok comps' →
      threshScan s fltMin n c data (comps.map (report s fltMin)) =
        .ok (comps'.map (report s fltMin)) := by
  intro n
  induction n with
  | zero =>
    intro c data comps comps' h
    simp only [Sys.scan, Outcome.ok.injEq] at h
    simp [threshScan, h]
  | succ n ih =>
    intro c data comps comps' h
    by_cases hc : s.grid.has c
    · have hc' : (threshSys s).g.has c := hc
      by_cases hT : data c = 0 ∧ s.thr < s.snr c
      · have hT' : unv data c = true := by simpa [unv] using hT.1
        have hm : (threshSys s).seedOk c = true := by simpa [threshSys] using hT.2
        simp only [Sys.scan, if_pos hc', hT', hm, Bool.and_self, if_true] at h
        cases hb : (threshSys s).bfs (1 + s.grid.drifts * s.grid.chans * (l1Offsets s.dist).length)
            (unv data) [c] [] with
        | ok r =>
          obtain ⟨T', locs⟩ := r
          obtain ⟨d', h1, h2⟩ := threshWhile_eq (seed := c) (p0 := freshHit fltMin) _ _ _ _ _ _ hb
          rw [hb] at h
          simp only [Outcome.bind_ok] at h
          rw [← h2] at h
          have := ih _ _ _ _ h
          rw [List.foldl_nil] at h1
          simp only [threshScan, Grid.read, if_pos hc, Outcome.bind_ok, if_pos hT, h1]
          simpa [report] using this
        | throws e => rw [hb] at h; simp at h
        | ub => rw [hb] at h; simp at h
      · have hT' : (unv data c && (threshSys s).seedOk c) = false := by
          by_contra hcon
          rw [Bool.not_eq_false, Bool.and_eq_true] at hcon
          exact hT ⟨by simpa [unv] using hcon.1, by simpa [threshSys] using hcon.2⟩
        simp only [Sys.scan, if_pos hc', hT'] at h
        have := ih _ _ _ _ (by simpa using h)
        simp only [threshScan, Grid.read, if_pos hc, Outcome.bind_ok, if_neg hT]
        exact this
    · have hc' : ¬ (threshSys s).g.has c := hc
      simp [Sys.scan, hc] at h

theorem findThresh_spec (s : Search F) (fltMin : F) :
    ∃ comps, findThresh s fltMin = .ok (comps.map (report s fltMin)) ∧
      Found (threshSys s) (fun _ => true) comps := by
  obtain ⟨comps, h1, h2⟩ := scan_spec (threshSys_ok s) (unv fun _ => 0)
    (fuel := 1 + s.grid.drifts * s.grid.chans * (l1Offsets s.dist).length) (Nat.le_refl _)
  exact ⟨comps, threshScan_eq _ _ _ [] _ h1, h2⟩

/-! ### The reported fields -/

theorem track_locations (s : Search F) (seed : Coord) (p : Protohit F) (c : Coord) :
    (s.track seed p c).locations = p.locations := by
  unfold Search.track; split <;> rfl

theorem add_locations (s : Search F) (seed : Coord) (p : Protohit F) (c : Coord) :
    (s.add seed p c).locations = p.locations ++ [c] := by
  simp [Search.add, track_locations]

theorem foldl_locations (s : Search F) (seed : Coord) (K : List Coord) (p : Protohit F) :
    (K.foldl (s.add seed) p).locations = p.locations ++ K := by
  induction K generalizing p with
  | nil => simp
  | cons c K ih => rw [List.foldl_cons, ih, add_locations]; simp

theorem report_locations (s : Search F) (fltMin : F) (A : Coord × List Coord) :
    (report s fltMin A).locations = A.2 := by
  simp [report, finishHit, foldl_locations, freshHit]

/-- Once set, the peak fields belong to a collected cell. -/
structure PeakAt (s : Search F) (seed : Coord) (K : List Coord) (p : Protohit F) : Prop where
  mem : p.indexMax ∈ K
  snr : p.snr = s.snr p.indexMax
  val : p.maxIntegration = s.val p.indexMax
  noise : p.noise = some (s.noise p.indexMax.1)
  rfi : p.rfi = some (s.rfi seed)

theorem PeakAt.add {s : Search F} {seed : Coord} {K : List Coord} {p : Protohit F}
    (h : PeakAt s seed K p) (c : Coord) : PeakAt s seed (K ++ [c]) (s.add seed p c) := by
  unfold Search.add Search.track
  split
  · exact ⟨by simp, rfl, rfl, rfl, rfl⟩
  · exact ⟨List.mem_append_left _ h.mem, h.snr, h.val, h.noise, h.rfi⟩

theorem PeakAt.foldl {s : Search F} {seed : Coord} (L : List Coord) {K : List Coord}
    {p : Protohit F} (h : PeakAt s seed K p) :
    PeakAt s seed (K ++ L) (L.foldl (s.add seed) p) := by
  induction L generalizing K p with
  | nil => simpa using h
  | cons c L ih => simpa using ih (h.add c)

theorem peak_first {s : Search F} {fltMin : F} {seed : Coord} (h : fltMin < s.snr seed)
    (L : List Coord) : PeakAt s seed (seed :: L) ((seed :: L).foldl (s.add seed) (freshHit fltMin)) := by
  have h1 : PeakAt s seed [seed] (s.add seed (freshHit fltMin) seed) := by
    unfold Search.add Search.track
    rw [if_pos (show (freshHit fltMin).snr < s.snr seed from h)]
    exact ⟨by simp, rfl, rfl, rfl, rfl⟩
  simpa using h1.foldl L

theorem foldl_max {s : Search F} {seed : Coord} (htrans : ∀ a b c : F, a < b → b < c → a < c)
    (hirr : ∀ a : F, ¬ a < a) (L : List Coord) (K : List Coord) (p : Protohit F)
    (h : ∀ l ∈ K, ¬ p.snr < s.snr l) :
    ∀ l ∈ K ++ L, ¬ (L.foldl (s.add seed) p).snr < s.snr l := by
  induction L generalizing K p with
  | nil => simpa using h
  | cons c L ih =>
    have := ih (K ++ [c]) (s.add seed p c) ?_
    · simpa using this
    · intro l hl
      unfold Search.add Search.track
      split
      · next hlt =>
        rcases List.mem_append.1 hl with hl | hl
        · exact fun hh => h l hl (htrans _ _ _ hlt hh)
        · rw [List.mem_singleton.1 hl]; exact hirr _
      · next hnlt =>
        rcases List.mem_append.1 hl with hl | hl
        · exact h l hl
        · rw [List.mem_singleton.1 hl]; exact hnlt

theorem extent_spec (d : Int) (K : List Coord) (lo hi : Int) (hle : lo ≤ hi) :
    (extent d K (lo, hi)).1 ≤ lo ∧ hi ≤ (extent d K (lo, hi)).2 ∧
    (∀ l ∈ K, l.1 = d → (extent d K (lo, hi)).1 ≤ l.2 ∧ l.2 ≤ (extent d K (lo, hi)).2) ∧
    ((extent d K (lo, hi)).1 = lo ∨ (d, (extent d K (lo, hi)).1) ∈ K) ∧
    ((extent d K (lo, hi)).2 = hi ∨ (d, (extent d K (lo, hi)).2) ∈ K) := by
  induction K generalizing lo hi with
  | nil => simp [extent]
  | cons l K ih =>
    obtain ⟨a, b⟩ := l
    unfold extent
    simp only
    by_cases hd : a = d
    · rw [if_pos hd]
      subst hd
      by_cases h1 : hi < b
      · rw [if_pos h1]
        obtain ⟨i1, i2, i3, i4, i5⟩ := ih lo b (by omega)
        refine ⟨i1, by omega, ?_, ?_, ?_⟩
        · intro l hl hl1
          rcases List.mem_cons.1 hl with rfl | hl
          · exact ⟨by simp only; omega, i2⟩
          · exact i3 l hl hl1
        · rcases i4 with h | h
          · exact Or.inl h
          · exact Or.inr (List.mem_cons_of_mem _ h)
        · rcases i5 with h | h
          · right; rw [h]; exact List.mem_cons_self ..
          · exact Or.inr (List.mem_cons_of_mem _ h)
      · rw [if_neg h1]
        by_cases h2 : b < lo
        · rw [if_pos h2]
          obtain ⟨i1, i2, i3, i4, i5⟩ := ih b hi (by omega)
          refine ⟨by omega, i2, ?_, ?_, ?_⟩
          · intro l hl hl1
            rcases List.mem_cons.1 hl with rfl | hl
            · exact ⟨i1, by simp only; omega⟩
            · exact i3 l hl hl1
          · rcases i4 with h | h
            · right; rw [h]; exact List.mem_cons_self ..
            · exact Or.inr (List.mem_cons_of_mem _ h)
          · rcases i5 with h | h
            · exact Or.inl h
            · exact Or.inr (List.mem_cons_of_mem _ h)
        · rw [if_neg h2]
          obtain ⟨i1, i2, i3, i4, i5⟩ := ih lo hi hle
          refine ⟨i1, i2, ?_, ?_, ?_⟩
          · intro l hl hl1
            rcases List.mem_cons.1 hl with rfl | hl
            · exact ⟨by simp only; omega, by simp only; omega⟩
            · exact i3 l hl hl1
          · exact i4.imp_right (List.mem_cons_of_mem _)
          · exact i5.imp_right (List.mem_cons_of_mem _)
    · rw [if_neg hd]
      obtain ⟨i1, i2, i3, i4, i5⟩ := ih lo hi hle
      refine ⟨i1, i2, ?_, i4.imp_right (List.mem_cons_of_mem _), i5.imp_right (List.mem_cons_of_mem _)⟩
      intro l hl hl1
      rcases List.mem_cons.1 hl with rfl | hl
      · exact absurd hl1 hd
      · exact i3 l hl hl1

end

/-! ## Consequences of growth -/

theorem Grown.head {N : Coord → Coord → Prop} {s : Coord} {K : List Coord} (h : Grown N s K) :
    ∃ L, K = s :: L := by
  induction h with
  | one => exact ⟨[], rfl⟩
  | more _ _ _ ih =>
    obtain ⟨L, rfl⟩ := ih
    exact ⟨_, List.cons_append ..⟩

theorem Grown.reach {N : Coord → Coord → Prop} {s : Coord} {K : List Coord} (h : Grown N s K) :
    ∀ x ∈ K, Relation.ReflTransGen (fun a b => b ∈ K ∧ N a b) s x := by
  induction h with
  | one =>
    intro x hx
    rw [List.mem_singleton.1 hx]
  | @more K x p _ hp hN ih =>
    have mono : ∀ y, Relation.ReflTransGen (fun a b => b ∈ K ∧ N a b) s y →
        Relation.ReflTransGen (fun a b => b ∈ K ++ [x] ∧ N a b) s y := fun y hy =>
      by
      induction hy with
      | refl => exact .refl
      | tail _ hab ih => exact ih.tail ⟨List.mem_append_left _ hab.1, hab.2⟩
    intro y hy
    rcases List.mem_append.1 hy with hy | hy
    · exact mono y (ih y hy)
    · rw [List.mem_singleton.1 hy]
      exact (mono p (ih p hp)).tail ⟨by simp, hN⟩

/-! ## The neighbour offsets -/

theorem mem_intRange {a b x : Int} : x ∈ intRange a b ↔ a ≤ x ∧ x < b := by
  unfold intRange
  rw [List.mem_map]
  constructor
  · rintro ⟨k, hk, rfl⟩
    have := List.mem_range.1 hk
    omega
  · rintro ⟨h1, h2⟩
    exact ⟨(x - a).toNat, List.mem_range.2 (by omega), by omega⟩

theorem mem_l1Offsets {d : Int} {o : Coord} :
    o ∈ l1Offsets d ↔ -d ≤ o.2 ∧ o.2 < d ∧ -d + |o.2| ≤ o.1 ∧ o.1 < d - |o.2| := by
  unfold l1Offsets
  simp only [List.mem_flatMap, List.mem_map, mem_intRange]
  constructor
  · rintro ⟨f, ⟨h1, h2⟩, dr, ⟨h3, h4⟩, rfl⟩
    rw [Int.abs_eq_natAbs]
    exact ⟨h1, h2, h3, h4⟩
  · rintro ⟨h1, h2, h3, h4⟩
    rw [Int.abs_eq_natAbs] at h3 h4
    exact ⟨o.2, ⟨h1, h2⟩, o.1, ⟨h3, h4⟩, rfl⟩

theorem near_neighbour {d : Int} {p x : Coord} (h : l1 p x < d) : Neighbour (l1Offsets d) p x := by
  refine ⟨(x.1 - p.1, x.2 - p.2), mem_l1Offsets.2 ?_, by simp, by simp⟩
  unfold l1 at h
  rw [abs_sub_comm p.1, abs_sub_comm p.2] at h
  have a1 := le_abs_self (x.1 - p.1)
  have a2 := neg_abs_le (x.1 - p.1)
  have b1 := le_abs_self (x.2 - p.2)
  have b2 := neg_abs_le (x.2 - p.2)
  have c1 := abs_nonneg (x.1 - p.1)
  simp only
  generalize |x.1 - p.1| = u at *
  generalize |x.2 - p.2| = v at *
  omega

theorem l1_comm (p x : Coord) : l1 p x = l1 x p := by
  unfold l1; rw [abs_sub_comm p.1, abs_sub_comm p.2]

end Bliss.Comp
