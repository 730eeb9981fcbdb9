import Verif.Comp.Lemmas

/-!
# Model of the local-maxima search (`bliss/drift_search/kernels/local_maxima_cpu.cpp`)

Same conventions as `Verif/Comp/Model.lean`. Simplification: the factor `rtol = 1.0f` (line 37) is
omitted, as multiplying by 1 is exact.
-/

set_option linter.unusedSectionVars false

namespace Bliss.Comp

variable {F : Type}
variable [Sub F] [Div F] [LT F] [DecidableLT F] [OfNat F 0] [OfNat F 2]

/-- Inner neighbourhood loop (lines 57-86) over the drift offsets of one frequency offset: a weaker
neighbour is marked done, anything else ends the loop with `false`. -/
def innerNbh (s : Search F) (c : Coord) : List Coord → (Coord → Nat) → (Coord → Nat) × Bool
  | [], v => (v, true)
  | o :: os, v =>
    if s.grid.has (shift c o) then
      if s.snr (shift c o) < s.snr c then innerNbh s c os (put v (shift c o) 0)
      else (v, false)
    else (v, false)

/-- Outer neighbourhood loop (lines 56-87); the `break` statements leave the inner loop only. -/
def nbhLoop (s : Search F) (c : Coord) : List (List Coord) → (Coord → Nat) → Bool →
    (Coord → Nat) × Bool
  | [], v, b => (v, b)
  | row :: rows, v, b =>
    let r := innerNbh s c row v
    nbhLoop s c rows r.1 (b && r.2)

/-- The offsets of lines 56-57, one list per frequency offset. -/
def l1Rows (d : Int) : List (List Coord) :=
  (intRange (-d) d).map fun f => (intRange (-d + f.natAbs) (d - f.natAbs)).map fun dr => (dr, f)

/-- Lines 111-140: `n` is the channel just inspected or accepted; walks down while the value keeps
falling and stays above the threshold (with the noise of the drift of the maximum). The result is
the first channel not accepted. -/
def expandDown (s : Search F) (d : Int) : Nat → F → (Coord → Nat) → Int × (Coord → Nat)
  | 0, _, v => (-1, v)
  | n + 1, e, v =>
    if s.thr < (s.val (d, n) - s.floor) / s.noise d ∧ s.val (d, n) < e then
      expandDown s d n (s.val (d, n)) (put v (d, (n : Int)) 0)
    else ((n : Int), v)

/-- Lines 142-169: the same upwards from channel `f`, with `n` channels left above it. -/
def expandUp (s : Search F) (d : Int) : Nat → Int → F → (Coord → Nat) → Int × (Coord → Nat)
  | 0, f, _, v => (f + 1, v)
  | n + 1, f, e, v =>
    if s.thr < (s.val (d, f + 1) - s.floor) / s.noise d ∧ s.val (d, f + 1) < e then
      expandUp s d n (f + 1) (s.val (d, f + 1)) (put v (d, f + 1) 0)
    else (f + 1, v)

/-- Lines 91-174: the reported maximum and the new `visited`. -/
def mkMaximum (s : Search F) (c : Coord) (v : Coord → Nat) : Protohit F × (Coord → Nat) :=
  let dn := expandDown s c.1 c.2.toNat (s.val c) v
  let up := expandUp s c.1 (s.grid.chans - 1 - c.2.toNat) c.2 (s.val c) dn.2
  ({ indexMax := c
     indexCenter := (c.1, (up.1 + dn.1).tdiv 2)
     snr := s.snr c
     maxIntegration := s.val c
     noise := some (s.noise c.1)
     binwidth := up.1 - dn.1
     locations := [c]
     rfi := some (s.rfi c) }, up.2)

/-- The raster scan (lines 40-182). -/
def maximaScan (s : Search F) : Nat → Coord → (Coord → Nat) → List (Protohit F) →
    Outcome (List (Protohit F))
  | 0, _, _, out => .ok out
  | n + 1, c, v, out => do
    let m ← s.grid.read v c
    if m > 0 then
      let v1 := put v c 0
      if s.thr < s.snr c then
        let r := nbhLoop s c (l1Rows s.dist) v1 true
        if r.2 then
          let h := mkMaximum s c r.1
          maximaScan s n (s.grid.next c) h.2 (out ++ [h.1])
        else maximaScan s n (s.grid.next c) r.1 out
      else maximaScan s n (s.grid.next c) v1 out
    else maximaScan s n (s.grid.next c) v out

/-- `find_local_maxima_above_threshold_cpu` (lines 12-186). -/
def findMaxima (s : Search F) : Outcome (List (Protohit F)) :=
  maximaScan s (s.grid.drifts * s.grid.chans) (0, 0) (fun _ => 1) []

/-! ## Lemmas -/

theorem innerNbh_self (s : Search F) (c : Coord) (hirr : ∀ a : F, ¬ a < a) :
    ∀ (os : List Coord) v, ((0, 0) : Coord) ∈ os → (innerNbh s c os v).2 = false := by
  intro os
  induction os with
  | nil => intro v h; cases h
  | cons o os ih =>
    intro v h
    unfold innerNbh
    split
    · split
      · next hlt =>
        rcases List.mem_cons.1 h with h | h
        · subst h
          have : shift c (0, 0) = c := by simp [shift]
          rw [this] at hlt
          exact absurd hlt (hirr _)
        · exact ih _ h
      · rfl
    · rfl

theorem nbhLoop_false (s : Search F) (c : Coord) :
    ∀ (rows : List (List Coord)) v, (nbhLoop s c rows v false).2 = false := by
  intro rows
  induction rows with
  | nil => intro v; rfl
  | cons r rows ih => intro v; unfold nbhLoop; simp only [Bool.false_and]; exact ih _

theorem nbhLoop_self (s : Search F) (c : Coord) (hirr : ∀ a : F, ¬ a < a) :
    ∀ (rows : List (List Coord)) v b, (∃ row ∈ rows, ((0, 0) : Coord) ∈ row) →
      (nbhLoop s c rows v b).2 = false := by
  intro rows
  induction rows with
  | nil => rintro v b ⟨row, h, _⟩; cases h
  | cons r rows ih =>
    rintro v b ⟨row, h, h0⟩
    unfold nbhLoop
    simp only
    rcases List.mem_cons.1 h with h | h
    · subst h
      rw [innerNbh_self s c hirr _ v h0, Bool.and_false]
      exact nbhLoop_false s c _ _
    · exact ih _ _ ⟨row, h, h0⟩

theorem l1Rows_self {d : Int} (hd : 1 ≤ d) : ∃ row ∈ l1Rows d, ((0, 0) : Coord) ∈ row := by
  refine ⟨_, List.mem_map.2 ⟨0, mem_intRange.2 (by omega), rfl⟩, ?_⟩
  exact List.mem_map.2 ⟨0, mem_intRange.2 (by simp; omega), rfl⟩

theorem maximaScan_none (s : Search F) (hirr : ∀ a : F, ¬ a < a) (hd : 1 ≤ s.dist) :
    ∀ n k v out, k + n = s.grid.drifts * s.grid.chans →
      maximaScan s n (cellAt s.grid k) v out = .ok out := by
  intro n
  induction n with
  | zero => intro k v out _; rfl
  | succ n ih =>
    intro k v out hk
    have hlt : k < s.grid.drifts * s.grid.chans := by omega
    have hc : 0 < s.grid.chans := by
      rcases Nat.eq_zero_or_pos s.grid.chans with h0 | h0
      · rw [h0] at hlt; simp at hlt
      · exact h0
    have hf := nbhLoop_self s (cellAt s.grid k) hirr (l1Rows s.dist)
    unfold maximaScan
    simp only [Grid.read, if_pos (cellAt_has hlt), Outcome.bind_ok, next_cellAt hc]
    split
    · split
      · rw [hf _ _ (l1Rows_self hd)]
        exact ih _ _ _ (by omega)
      · exact ih _ _ _ (by omega)
    · exact ih _ _ _ (by omega)

/-- `x` has a stronger neighbour in frequency. -/
def Beside (s : Search F) (x : Coord) : Prop :=
  (s.grid.has (x.1, x.2 + 1) ∧ s.val x < s.val (x.1, x.2 + 1)) ∨
  (s.grid.has (x.1, x.2 - 1) ∧ s.val x < s.val (x.1, x.2 - 1))

theorem expandDown_marks (s : Search F) (d : Int) :
    ∀ (n : Nat) (v : Coord → Nat), s.grid.has (d, n) →
      ∀ x, (expandDown s d n (s.val (d, n)) v).2 x = 0 → v x = 0 ∨ Beside s x := by
  intro n
  induction n with
  | zero => intro v _ x h; exact Or.inl h
  | succ n ih =>
    intro v hg x h
    unfold expandDown at h
    split at h
    · next hc =>
      have hg' : s.grid.has (d, (n : Int)) := by
        unfold Grid.has at *; simp only at *; omega
      rcases ih _ hg' x h with h' | h'
      · by_cases hx : x = (d, (n : Int))
        · right; left
          subst hx
          refine ⟨?_, ?_⟩
          · simpa using hg
          · simpa using hc.2
        · rw [put_ne _ _ hx] at h'; exact Or.inl h'
      · exact Or.inr h'
    · exact Or.inl h

theorem expandUp_marks (s : Search F) (d : Int) :
    ∀ (n : Nat) (f : Int) (v : Coord → Nat), s.grid.has (d, f) → f + 1 + n = s.grid.chans →
      ∀ x, (expandUp s d n f (s.val (d, f)) v).2 x = 0 → v x = 0 ∨ Beside s x := by
  intro n
  induction n with
  | zero => intro f v _ _ x h; exact Or.inl h
  | succ n ih =>
    intro f v hg hn x h
    unfold expandUp at h
    split at h
    · next hc =>
      have hg' : s.grid.has (d, f + 1) := by
        unfold Grid.has at *; simp only at *; omega
      rcases ih _ _ hg' (by push_cast at hn; omega) x h with h' | h'
      · by_cases hx : x = (d, f + 1)
        · right; right
          subst hx
          refine ⟨?_, ?_⟩
          · simpa using hg
          · simpa using hc.2
        · rw [put_ne _ _ hx] at h'; exact Or.inl h'
      · exact Or.inr h'
    · exact Or.inl h

theorem mkMaximum_marks (s : Search F) {c : Coord} (hc : s.grid.has c) (v : Coord → Nat) :
    ∀ x, (mkMaximum s c v).2 x = 0 → v x = 0 ∨ Beside s x := by
  obtain ⟨d, f⟩ := c
  have hc' := hc
  obtain ⟨h1, h2, h3, h4⟩ := hc
  simp only at h1 h2 h3 h4
  obtain ⟨n, rfl⟩ := Int.eq_ofNat_of_zero_le h3
  intro x hx
  unfold mkMaximum at hx
  simp only [Int.toNat_natCast] at hx
  rcases expandUp_marks s d _ _ _ hc' (by omega) x hx with h | h
  · exact expandDown_marks s d n v hc' x h
  · exact Or.inr h

/-- Channel `f` belongs to the peak seen from its neighbour `g`: above the threshold and weaker. -/
def Falls (s : Search F) (d f g : Int) : Prop := s.thr < s.snr (d, f) ∧ s.val (d, f) < s.val (d, g)

/-- The peak at `c` fills exactly the channels strictly between `lo` and `hi`: the values fall, above
the threshold, on both sides of `c`, and not beyond. -/
structure Extent (s : Search F) (c : Coord) (lo hi : Int) : Prop where
  lo_ge : -1 ≤ lo
  lo_lt : lo < c.2
  lt_hi : c.2 < hi
  hi_le : hi ≤ s.grid.chans
  below : ∀ f, lo < f → f < c.2 → Falls s c.1 f (f + 1)
  above : ∀ f, c.2 < f → f < hi → Falls s c.1 f (f - 1)
  lo_end : lo = -1 ∨ ¬ Falls s c.1 lo (lo + 1)
  hi_end : hi = s.grid.chans ∨ ¬ Falls s c.1 hi (hi - 1)

theorem expandDown_extent (s : Search F) (d : Int) :
    ∀ (n : Nat) (v : Coord → Nat), let lo := (expandDown s d n (s.val (d, n)) v).1;
      -1 ≤ lo ∧ lo < n ∧ (∀ f, lo < f → f < n → Falls s d f (f + 1)) ∧
        (lo = -1 ∨ ¬ Falls s d lo (lo + 1)) := by
  intro n
  induction n with
  | zero =>
    intro v
    refine ⟨by simp only [expandDown]; omega, by simp only [expandDown]; omega, ?_, Or.inl rfl⟩
    intro f h1 h2
    simp only [expandDown] at h1
    omega
  | succ n ih =>
    intro v
    unfold expandDown
    split
    · next hc =>
      obtain ⟨h1, h2, h3, h4⟩ := ih (put v (d, (n : Int)) 0)
      refine ⟨h1, by push_cast; omega, ?_, h4⟩
      intro f a b
      by_cases hf : f < n
      · exact h3 f a hf
      · have : f = n := by push_cast at b; omega
        subst this
        exact ⟨hc.1, by have := hc.2; push_cast at this; exact this⟩
    · next hc =>
      refine ⟨by simp only; omega, by push_cast; omega, ?_, Or.inr ?_⟩
      · intro f a b; simp only at a; push_cast at b; omega
      · intro hf
        exact hc ⟨hf.1, by have := hf.2; push_cast; exact this⟩

theorem expandUp_extent (s : Search F) (d : Int) :
    ∀ (n : Nat) (f : Int) (v : Coord → Nat), f + 1 + n = s.grid.chans →
      let hi := (expandUp s d n f (s.val (d, f)) v).1;
      f < hi ∧ hi ≤ s.grid.chans ∧ (∀ g, f < g → g < hi → Falls s d g (g - 1)) ∧
        (hi = s.grid.chans ∨ ¬ Falls s d hi (hi - 1)) := by
  intro n
  induction n with
  | zero =>
    intro f v hn
    refine ⟨by simp only [expandUp]; omega, by simp only [expandUp]; omega, ?_, Or.inl (by simp only [expandUp]; omega)⟩
    intro g h1 h2
    simp only [expandUp] at h2
    omega
  | succ n ih =>
    intro f v hn
    unfold expandUp
    split
    · next hc =>
      obtain ⟨h1, h2, h3, h4⟩ := ih (f + 1) (put v (d, f + 1) 0) (by push_cast at hn; omega)
      refine ⟨by omega, h2, ?_, h4⟩
      intro g a b
      by_cases hg : f + 1 < g
      · exact h3 g hg b
      · have : g = f + 1 := by omega
        subst this
        exact ⟨hc.1, by rw [Int.add_sub_cancel]; exact hc.2⟩
    · next hc =>
      refine ⟨by simp only; omega, by simp only; push_cast at hn; omega, ?_, Or.inr ?_⟩
      · intro g a b; simp only at b; omega
      · intro hf
        exact hc ⟨hf.1, by have := hf.2; rw [Int.add_sub_cancel] at this; exact this⟩

theorem mkMaximum_extent (s : Search F) {c : Coord} (hc : s.grid.has c) (v : Coord → Nat) :
    ∃ lo hi, Extent s c lo hi ∧ (mkMaximum s c v).1.binwidth = hi - lo ∧
      (mkMaximum s c v).1.indexCenter = (c.1, (hi + lo).tdiv 2) := by
  obtain ⟨d, f⟩ := c
  obtain ⟨h1, h2, h3, h4⟩ := hc
  simp only at h1 h2 h3 h4
  obtain ⟨n, rfl⟩ := Int.eq_ofNat_of_zero_le h3
  obtain ⟨a1, a2, a3, a4⟩ := expandDown_extent s d n v
  obtain ⟨b1, b2, b3, b4⟩ := expandUp_extent s d (s.grid.chans - 1 - n) n
    (expandDown s d n (s.val (d, n)) v).2 (by omega)
  exact ⟨_, _, ⟨a1, a2, b1, b2, a3, b3, a4, b4⟩, rfl, rfl⟩

/-- Invariant of the scan for `dist ≤ 0`. -/
structure MaxInv (s : Search F) (k : Nat) (v : Coord → Nat) (out : List (Protohit F)) : Prop where
  marked : ∀ x, v x = 0 → (∃ j < k, cellAt s.grid j = x) ∨ Beside s x
  found : ∀ j < k, s.thr < s.snr (cellAt s.grid j) → ¬ Beside s (cellAt s.grid j) →
    ∃ h ∈ out, h.indexMax = cellAt s.grid j
  ok : ∀ h ∈ out, ∃ j < k, h.indexMax = cellAt s.grid j ∧ s.thr < s.snr (cellAt s.grid j) ∧
    h.snr = s.snr h.indexMax ∧ h.maxIntegration = s.val h.indexMax ∧
    h.noise = some (s.noise h.indexMax.1) ∧ h.rfi = some (s.rfi h.indexMax) ∧
    ∃ lo hi, Extent s h.indexMax lo hi ∧ h.binwidth = hi - lo ∧
      h.indexCenter = (h.indexMax.1, (hi + lo).tdiv 2)
  once : (out.map (·.indexMax)).Nodup

theorem cellAt_inj {g : Grid} (hc : 0 < g.chans) {i j : Nat} (h : cellAt g i = cellAt g j) : i = j := by
  unfold cellAt at h
  have h1 : i / g.chans = j / g.chans := by exact_mod_cast (Prod.mk.inj h).1
  have h2 : i % g.chans = j % g.chans := by exact_mod_cast (Prod.mk.inj h).2
  rw [← Nat.div_add_mod i g.chans, ← Nat.div_add_mod j g.chans, h1, h2]

theorem l1Rows_nil {d : Int} (hd : d ≤ 0) : l1Rows d = [] := by
  have : (d - -d).toNat = 0 := by omega
  unfold l1Rows intRange
  rw [this]
  rfl

theorem maximaScan_spec (s : Search F) (hd : s.dist ≤ 0) :
    ∀ n k v out, k + n = s.grid.drifts * s.grid.chans → MaxInv s k v out →
      ∃ v' out', maximaScan s n (cellAt s.grid k) v out = .ok out' ∧
        MaxInv s (s.grid.drifts * s.grid.chans) v' out' := by
  intro n
  induction n with
  | zero =>
    intro k v out hk hI
    have : k = s.grid.drifts * s.grid.chans := by omega
    exact ⟨v, out, rfl, this ▸ hI⟩
  | succ n ih =>
    intro k v out hk hI
    have hlt : k < s.grid.drifts * s.grid.chans := by omega
    have hc : 0 < s.grid.chans := by
      rcases Nat.eq_zero_or_pos s.grid.chans with h0 | h0
      · rw [h0] at hlt; simp at hlt
      · exact h0
    have hhas := cellAt_has hlt
    have hput : ∀ x, put v (cellAt s.grid k) 0 x = 0 →
        (∃ j < k + 1, cellAt s.grid j = x) ∨ Beside s x := by
      intro x hx
      by_cases hxk : x = cellAt s.grid k
      · exact Or.inl ⟨k, by omega, hxk.symm⟩
      · rw [put_ne _ _ hxk] at hx
        rcases hI.marked x hx with ⟨j, hj, e⟩ | h
        · exact Or.inl ⟨j, by omega, e⟩
        · exact Or.inr h
    have hok : ∀ h ∈ out, ∃ j < k + 1, h.indexMax = cellAt s.grid j ∧ s.thr < s.snr (cellAt s.grid j) ∧
        h.snr = s.snr h.indexMax ∧ h.maxIntegration = s.val h.indexMax ∧
        h.noise = some (s.noise h.indexMax.1) ∧ h.rfi = some (s.rfi h.indexMax) ∧
    ∃ lo hi, Extent s h.indexMax lo hi ∧ h.binwidth = hi - lo ∧
      h.indexCenter = (h.indexMax.1, (hi + lo).tdiv 2) := by
      intro h hh
      obtain ⟨j, hj, r⟩ := hI.ok h hh
      exact ⟨j, by omega, r⟩
    unfold maximaScan
    simp only [Grid.read, if_pos hhas, Outcome.bind_ok, next_cellAt hc, l1Rows_nil hd, nbhLoop,
      if_true]
    by_cases hv : v (cellAt s.grid k) > 0
    · rw [if_pos hv]
      by_cases ht : s.thr < s.snr (cellAt s.grid k)
      · rw [if_pos ht]
        refine ih _ _ _ (by omega) ⟨?_, ?_, ?_, ?_⟩
        · intro x hx
          rcases mkMaximum_marks s hhas _ x hx with h | h
          · exact hput x h
          · exact Or.inr h
        · intro j hj h1 h2
          rcases Nat.lt_succ_iff_lt_or_eq.1 hj with hj | hj
          · obtain ⟨h, hh, e⟩ := hI.found j hj h1 h2
            exact ⟨h, List.mem_append_left _ hh, e⟩
          · subst hj
            exact ⟨_, List.mem_append_right _ (List.mem_singleton.2 rfl), rfl⟩
        · intro h hh
          rcases List.mem_append.1 hh with hh | hh
          · exact hok h hh
          · rw [List.mem_singleton.1 hh]
            exact ⟨k, by omega, rfl, ht, rfl, rfl, rfl, rfl, mkMaximum_extent s hhas _⟩
        · rw [List.map_append]
          refine List.nodup_append.2 ⟨hI.once, by simp, ?_⟩
          intro a ha b hb
          rw [List.map_singleton, List.mem_singleton] at hb
          obtain ⟨h, hh, rfl⟩ := List.mem_map.1 ha
          obtain ⟨j, hj, e, _⟩ := hI.ok h hh
          rw [hb, e]
          intro he
          have := cellAt_inj hc (i := j) (j := k) he
          omega
      · rw [if_neg ht]
        refine ih _ _ _ (by omega) ⟨hput, ?_, hok, hI.once⟩
        intro j hj h1 h2
        rcases Nat.lt_succ_iff_lt_or_eq.1 hj with hj | hj
        · exact hI.found j hj h1 h2
        · subst hj; exact absurd h1 ht
    · rw [if_neg hv]
      refine ih _ _ _ (by omega) ⟨?_, ?_, hok, hI.once⟩
      · intro x hx
        rcases hI.marked x hx with ⟨j, hj, e⟩ | h
        · exact Or.inl ⟨j, by omega, e⟩
        · exact Or.inr h
      · intro j hj h1 h2
        rcases Nat.lt_succ_iff_lt_or_eq.1 hj with hj | hj
        · exact hI.found j hj h1 h2
        · subst hj
          rcases hI.marked (cellAt s.grid j) (by omega) with ⟨i, hi, e⟩ | h
          · have := cellAt_inj hc e; omega
          · exact absurd h h2

end Bliss.Comp
