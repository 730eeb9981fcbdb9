import Verif.Comp.Model
import Mathlib.Data.List.Nodup
import Mathlib.Data.List.Basic

/-!
# The queue search shared by the two component searches

Proof device only: an abstract flood fill over a set `T` of cells that are still open, with its
invariant. `Verif/Comp/Lemmas.lean` shows that both modelled searches behave like it.
-/

namespace Bliss.Comp

/-- Parameters of the abstract search. -/
structure Sys where
  g : Grid
  /-- does an open cell join the component once reached? -/
  member : Coord → Bool
  /-- does an open cell start a component? -/
  seedOk : Coord → Bool
  /-- neighbour relation -/
  N : Coord → Coord → Prop
  /-- cells queued after `c` joined, `T` being what is open then -/
  push : (Coord → Bool) → Coord → List Coord
  /-- bound on the number of queued cells -/
  M : Nat

structure Sys.Ok (y : Sys) : Prop where
  push_sub : ∀ T c x, x ∈ y.push T c → y.N c x ∧ y.g.has x
  push_all : ∀ T c x, y.N c x → y.g.has x → T x = true → x ∈ y.push T c
  push_len : ∀ T c, (y.push T c).length ≤ y.M

def Sys.bfs (y : Sys) : Nat → (Coord → Bool) → List Coord → List Coord →
    Outcome ((Coord → Bool) × List Coord)
  | _, T, [], locs => .ok (T, locs)
  | 0, _, _ :: _, _ => .ub
  | fuel + 1, T, c :: q, locs =>
    if y.g.has c then
      if T c then
        if y.member c then y.bfs fuel (put T c false) (q ++ y.push (put T c false) c) (locs ++ [c])
        else y.bfs fuel (put T c false) q locs
      else y.bfs fuel T q locs
    else .ub

def Sys.scan (y : Sys) (fuel : Nat) : Nat → Coord → (Coord → Bool) → List (Coord × List Coord) →
    Outcome (List (Coord × List Coord))
  | 0, _, _, comps => .ok comps
  | n + 1, c, T, comps =>
    if y.g.has c then
      if T c && y.seedOk c then do
        let (T', locs) ← y.bfs fuel T [c] []
        y.scan fuel n (y.g.next c) T' (comps ++ [(c, locs)])
      else y.scan fuel n (y.g.next c) T comps
    else .ub

/-- `K` was collected from `s` by steps to neighbours of cells already collected. -/
inductive Grown (N : Coord → Coord → Prop) (s : Coord) : List Coord → Prop
  | one : Grown N s [s]
  | more {K x p} : Grown N s K → p ∈ K → N p x → Grown N s (K ++ [x])

/-! ## Raster order -/

def cellAt (g : Grid) (k : Nat) : Coord := ((k / g.chans : Nat), (k % g.chans : Nat))

def cellsOf (g : Grid) : List Coord := (List.range (g.drifts * g.chans)).map (cellAt g)

theorem cellAt_has {g : Grid} {k : Nat} (h : k < g.drifts * g.chans) : g.has (cellAt g k) := by
  have hc : 0 < g.chans := by
    rcases Nat.eq_zero_or_pos g.chans with h0 | h0
    · rw [h0] at h; simp at h
    · exact h0
  have h1 : k / g.chans < g.drifts := Nat.div_lt_of_lt_mul (by rw [Nat.mul_comm]; exact h)
  have h2 := Nat.mod_lt k hc
  unfold Grid.has cellAt
  exact ⟨Int.natCast_nonneg _, Int.ofNat_lt.2 h1, Int.natCast_nonneg _, Int.ofNat_lt.2 h2⟩

theorem has_cellAt {g : Grid} {x : Coord} (h : g.has x) :
    ∃ k, k < g.drifts * g.chans ∧ cellAt g k = x := by
  obtain ⟨a, b⟩ := x
  obtain ⟨h1, h2, h3, h4⟩ := h
  simp only at h1 h2 h3 h4
  obtain ⟨a, rfl⟩ := Int.eq_ofNat_of_zero_le h1
  obtain ⟨b, rfl⟩ := Int.eq_ofNat_of_zero_le h3
  have h2' : a < g.drifts := by exact_mod_cast h2
  have h4' : b < g.chans := by exact_mod_cast h4
  refine ⟨a * g.chans + b, ?_, ?_⟩
  · calc a * g.chans + b < a * g.chans + g.chans := by omega
      _ = (a + 1) * g.chans := by rw [Nat.add_mul]; simp
      _ ≤ g.drifts * g.chans := Nat.mul_le_mul_right _ h2'
  · unfold cellAt
    have hc : 0 < g.chans := by omega
    rw [Nat.mul_comm, Nat.mul_add_div hc, Nat.mul_add_mod, Nat.div_eq_of_lt h4', Nat.mod_eq_of_lt h4']
    simp

theorem mem_cellsOf {g : Grid} {x : Coord} : x ∈ cellsOf g ↔ g.has x := by
  constructor
  · intro h
    obtain ⟨k, hk, rfl⟩ := List.mem_map.1 h
    exact cellAt_has (List.mem_range.1 hk)
  · intro h
    obtain ⟨k, hk, rfl⟩ := has_cellAt h
    exact List.mem_map.2 ⟨k, List.mem_range.2 hk, rfl⟩

theorem next_cellAt {g : Grid} (hc : 0 < g.chans) (k : Nat) :
    g.next (cellAt g k) = cellAt g (k + 1) := by
  have hm := Nat.mod_lt k hc
  have hd := Nat.div_add_mod k g.chans
  unfold Grid.next cellAt
  simp only
  split
  · next h =>
    have h' : k % g.chans + 1 = g.chans := by exact_mod_cast h
    have e : k + 1 = g.chans * (k / g.chans + 1) := by rw [Nat.mul_add]; omega
    rw [e, Nat.mul_div_cancel_left _ hc, Nat.mul_mod_right]
    simp
  · next h =>
    have h' : k % g.chans + 1 ≠ g.chans := by exact_mod_cast h
    have e : k + 1 = g.chans * (k / g.chans) + (k % g.chans + 1) := by omega
    have hlt : k % g.chans + 1 < g.chans := by omega
    rw [e, Nat.mul_add_div hc, Nat.mul_add_mod, Nat.div_eq_of_lt hlt, Nat.mod_eq_of_lt hlt]
    simp

/-! ## Termination measure -/

def openCount (g : Grid) (T : Coord → Bool) : Nat := (cellsOf g).countP T

theorem put_self {α : Type} (T : Coord → α) (c : Coord) (v : α) : put T c v c = v := by simp [put]

theorem put_ne {α : Type} (T : Coord → α) {c x : Coord} (v : α) (h : x ≠ c) : put T c v x = T x := by
  simp [put, h]

theorem countP_put_le (T : Coord → Bool) (c : Coord) (l : List Coord) :
    l.countP (put T c false) ≤ l.countP T := by
  refine List.countP_mono_left ?_
  intro x _ hx
  by_cases hxc : x = c
  · subst hxc; rw [put_self] at hx; cases hx
  · rwa [put_ne _ _ hxc] at hx

theorem countP_put_lt {T : Coord → Bool} {c : Coord} {l : List Coord} (hm : c ∈ l) (hT : T c = true) :
    l.countP (put T c false) < l.countP T := by
  induction l with
  | nil => cases hm
  | cons a l ih =>
    rw [List.countP_cons, List.countP_cons]
    by_cases hac : a = c
    · subst hac
      have := countP_put_le T a l
      rw [put_self, hT]; simp; omega
    · have hm' : c ∈ l := by
        rcases List.mem_cons.1 hm with h | h
        · exact absurd h.symm hac
        · exact h
      have := ih hm'
      rw [put_ne _ _ hac]; omega

theorem openCount_put {g : Grid} {T : Coord → Bool} {c : Coord} (hm : g.has c) (hT : T c = true) :
    openCount g (put T c false) < openCount g T := countP_put_lt (mem_cellsOf.2 hm) hT

theorem openCount_le (g : Grid) (T : Coord → Bool) : openCount g T ≤ g.drifts * g.chans := by
  have := List.countP_le_length (p := T) (l := cellsOf g)
  simpa [openCount, cellsOf] using this

/-! ## One flood fill -/

/-- Invariant of the queue loop, relative to what was open (`T0`) when it started. -/
structure BfsInv (y : Sys) (T0 : Coord → Bool) (s : Coord) (T : Coord → Bool) (q locs : List Coord) :
    Prop where
  sub : ∀ x, T x = true → T0 x = true
  nodup : locs.Nodup
  locs_ok : ∀ l ∈ locs, T0 l = true ∧ y.member l = true ∧ y.g.has l ∧ T l = false
  all : ∀ x, T0 x = true → T x = false → y.member x = true → x ∈ locs
  closed : ∀ p ∈ locs, ∀ x, y.N p x → y.g.has x → T x = false ∨ x ∈ q
  grown : Grown y.N s locs
  queued : ∀ x ∈ q, y.g.has x ∧ ∃ p ∈ locs, y.N p x

theorem bfs_step {y : Sys} (hy : y.Ok) {T0 : Coord → Bool} {s : Coord} :
    ∀ fuel T q locs, BfsInv y T0 s T q locs → q.length + openCount y.g T * y.M ≤ fuel →
      ∃ T' locs', y.bfs fuel T q locs = .ok (T', locs') ∧ BfsInv y T0 s T' [] locs' := by
  intro fuel
  induction fuel with
  | zero =>
    intro T q locs hI hf
    have : q = [] := List.length_eq_zero_iff.1 (by omega)
    subst this
    exact ⟨T, locs, by simp [Sys.bfs], hI⟩
  | succ fuel ih =>
    intro T q locs hI hf
    cases q with
    | nil => exact ⟨T, locs, by simp [Sys.bfs], hI⟩
    | cons c q =>
      obtain ⟨hc, p, hp, hpc⟩ := hI.queued c (List.mem_cons_self ..)
      by_cases hT : T c = true
      · have hcount := openCount_put hc hT
        have hmul : openCount y.g (put T c false) * y.M + y.M ≤ openCount y.g T * y.M := by
          calc _ = (openCount y.g (put T c false) + 1) * y.M := by rw [Nat.add_mul]; simp
            _ ≤ _ := Nat.mul_le_mul_right _ hcount
        have hcl : c ∉ locs := fun h => by
          have := (hI.locs_ok c h).2.2.2
          rw [hT] at this; cases this
        by_cases hm : y.member c = true
        · have := ih (put T c false) (q ++ y.push (put T c false) c) (locs ++ [c]) ?_ ?_
          · simpa [Sys.bfs, hc, hT, hm] using this
          · refine ⟨?_, ?_, ?_, ?_, ?_, ?_, ?_⟩
            · intro x hx
              by_cases hxc : x = c
              · subst hxc; exact hI.sub _ hT
              · rw [put_ne _ _ hxc] at hx; exact hI.sub x hx
            · exact List.nodup_append.2 ⟨hI.nodup, by simp, by
                intro a ha b hb; rw [List.mem_singleton.1 hb]; rintro rfl; exact hcl ha⟩
            · intro l hl
              rcases List.mem_append.1 hl with hl' | hl
              · obtain ⟨h1, h2, h3, h4⟩ := hI.locs_ok l hl'
                refine ⟨h1, h2, h3, ?_⟩
                rw [put_ne]
                · exact h4
                · rintro rfl; exact hcl hl'
              · rw [List.mem_singleton.1 hl]
                exact ⟨hI.sub _ hT, hm, hc, put_self ..⟩
            · intro x h1 h2 h3
              by_cases hxc : x = c
              · subst hxc; simp
              · rw [put_ne _ _ hxc] at h2
                exact List.mem_append_left _ (hI.all x h1 h2 h3)
            · intro r hr x hrx hx
              by_cases hTx : put T c false x = true
              · right
                rcases List.mem_append.1 hr with hr | hr
                · rcases hI.closed r hr x hrx hx with h | h
                  · by_cases hxc : x = c
                    · subst hxc; rw [put_self] at hTx; cases hTx
                    · rw [put_ne _ _ hxc, h] at hTx; cases hTx
                  · rcases List.mem_cons.1 h with h | h
                    · subst h; rw [put_self] at hTx; cases hTx
                    · exact List.mem_append_left _ h
                · rw [List.mem_singleton.1 hr] at hrx
                  exact List.mem_append_right _ (hy.push_all _ _ _ hrx hx hTx)
              · left; simpa using hTx
            · exact Grown.more hI.grown hp hpc
            · intro x hx
              rcases List.mem_append.1 hx with hx | hx
              · obtain ⟨h1, r, hr, h2⟩ := hI.queued x (List.mem_cons_of_mem _ hx)
                exact ⟨h1, r, List.mem_append_left _ hr, h2⟩
              · obtain ⟨h1, h2⟩ := hy.push_sub _ _ _ hx
                exact ⟨h2, c, by simp, h1⟩
          · have := hy.push_len (put T c false) c
            simp only [List.length_append, List.length_cons] at hf ⊢
            omega
        · have := ih (put T c false) q locs ?_ ?_
          · simpa [Sys.bfs, hc, hT, hm] using this
          · refine ⟨?_, hI.nodup, ?_, ?_, ?_, hI.grown, ?_⟩
            · intro x hx
              by_cases hxc : x = c
              · subst hxc; exact hI.sub _ hT
              · rw [put_ne _ _ hxc] at hx; exact hI.sub x hx
            · intro l hl
              obtain ⟨h1, h2, h3, h4⟩ := hI.locs_ok l hl
              refine ⟨h1, h2, h3, ?_⟩
              rw [put_ne]
              · exact h4
              · rintro rfl; exact hcl hl
            · intro x h1 h2 h3
              by_cases hxc : x = c
              · subst hxc; exact absurd h3 hm
              · rw [put_ne _ _ hxc] at h2
                exact hI.all x h1 h2 h3
            · intro r hr x hrx hx
              by_cases hxc : x = c
              · subst hxc; left; exact put_self ..
              · rw [put_ne _ _ hxc]
                rcases hI.closed r hr x hrx hx with h | h
                · exact Or.inl h
                · rcases List.mem_cons.1 h with h | h
                  · exact absurd h hxc
                  · exact Or.inr h
            · intro x hx; exact hI.queued x (List.mem_cons_of_mem _ hx)
          · simp only [List.length_cons] at hf
            omega
      · have := ih T q locs ?_ ?_
        · simpa [Sys.bfs, hc, hT] using this
        · refine ⟨hI.sub, hI.nodup, hI.locs_ok, hI.all, ?_, hI.grown, ?_⟩
          · intro r hr x hrx hx
            rcases hI.closed r hr x hrx hx with h | h
            · exact Or.inl h
            · rcases List.mem_cons.1 h with h | h
              · subst h; left; simpa using hT
              · exact Or.inr h
          · intro x hx; exact hI.queued x (List.mem_cons_of_mem _ hx)
        · simp only [List.length_cons] at hf; omega

/-- What one flood fill achieves. -/
structure Filled (y : Sys) (T0 : Coord → Bool) (s : Coord) (T : Coord → Bool) (locs : List Coord) :
    Prop where
  sub : ∀ x, T x = true → T0 x = true
  nodup : locs.Nodup
  locs_ok : ∀ l ∈ locs, T0 l = true ∧ y.member l = true ∧ y.g.has l ∧ T l = false
  all : ∀ x, T0 x = true → T x = false → y.member x = true → x ∈ locs
  closed : ∀ p ∈ locs, ∀ x, y.N p x → y.g.has x → T x = false
  grown : Grown y.N s locs ∨ (y.member s = false ∧ locs = [])
  seed : T s = false

theorem bfs_spec {y : Sys} (hy : y.Ok) {T : Coord → Bool} {s : Coord} (hs : y.g.has s)
    (hT : T s = true) {fuel : Nat} (hf : 1 + openCount y.g T * y.M ≤ fuel) :
    ∃ T' locs, y.bfs fuel T [s] [] = .ok (T', locs) ∧ Filled y T s T' locs := by
  cases fuel with
  | zero => omega
  | succ fuel =>
    have hcount := openCount_put hs hT
    have hmul : openCount y.g (put T s false) * y.M + y.M ≤ openCount y.g T * y.M := by
      calc _ = (openCount y.g (put T s false) + 1) * y.M := by rw [Nat.add_mul]; simp
        _ ≤ _ := Nat.mul_le_mul_right _ hcount
    have hsub : ∀ x, put T s false x = true → T x = true := by
      intro x hx
      by_cases hxs : x = s
      · subst hxs; exact hT
      · rwa [put_ne _ _ hxs] at hx
    by_cases hm : y.member s = true
    · have hinv : BfsInv y T s (put T s false) (y.push (put T s false) s) [s] := by
        refine ⟨hsub, by simp, ?_, ?_, ?_, Grown.one, ?_⟩
        · intro l hl
          rw [List.mem_singleton.1 hl]
          exact ⟨hT, hm, hs, put_self ..⟩
        · intro x h1 h2 _
          by_cases hxs : x = s
          · subst hxs; simp
          · rw [put_ne _ _ hxs, h1] at h2; cases h2
        · intro p hp x hpx hx
          rw [List.mem_singleton.1 hp] at hpx
          by_cases hTx : put T s false x = true
          · exact Or.inr (hy.push_all _ _ _ hpx hx hTx)
          · exact Or.inl (by simpa using hTx)
        · intro x hx
          obtain ⟨h1, h2⟩ := hy.push_sub _ _ _ hx
          exact ⟨h2, s, by simp, h1⟩
      have hlen := hy.push_len (put T s false) s
      obtain ⟨T', locs', h1, h2⟩ := bfs_step hy fuel _ _ _ hinv (by omega)
      refine ⟨T', locs', by simpa [Sys.bfs, hs, hT, hm] using h1, ?_⟩
      have hsl : s ∈ locs' := by
        have hg := h2.grown
        clear h1 h2
        induction hg with
        | one => simp
        | more _ _ _ ih => exact List.mem_append_left _ ih
      refine ⟨h2.sub, h2.nodup, h2.locs_ok, h2.all, ?_, Or.inl h2.grown, (h2.locs_ok s hsl).2.2.2⟩
      intro p hp x hpx hx
      rcases h2.closed p hp x hpx hx with h | h
      · exact h
      · cases h
    · refine ⟨put T s false, [], by simp [Sys.bfs, hs, hT, hm], ?_⟩
      refine ⟨hsub, by simp, by simp, ?_, by simp, Or.inr ⟨by simpa using hm, rfl⟩, put_self ..⟩
      intro x h1 h2 h3
      by_cases hxs : x = s
      · subst hxs; exact absurd h3 hm
      · rw [put_ne _ _ hxs, h1] at h2; cases h2

/-! ## The raster scan -/

/-- Invariant of the scan after `k` cells. -/
structure ScanInv (y : Sys) (T0 : Coord → Bool) (k : Nat) (T : Coord → Bool)
    (comps : List (Coord × List Coord)) : Prop where
  sub : ∀ x, T x = true → T0 x = true
  comp_ok : ∀ A ∈ comps, y.g.has A.1 ∧ T0 A.1 = true ∧ y.seedOk A.1 = true ∧ A.2.Nodup ∧
    (Grown y.N A.1 A.2 ∨ (y.member A.1 = false ∧ A.2 = [])) ∧
    (∀ l ∈ A.2, T0 l = true ∧ y.member l = true ∧ y.g.has l ∧ T l = false) ∧
    (∀ p ∈ A.2, ∀ x, y.N p x → y.g.has x → T x = false)
  all : ∀ x, T0 x = true → T x = false → y.member x = true → ∃ A ∈ comps, x ∈ A.2
  apart : comps.Pairwise fun A B => ∀ p ∈ A.2, ∀ x ∈ B.2, p ≠ x ∧ ¬ y.N p x
  done : ∀ j < k, T0 (cellAt y.g j) = true → y.seedOk (cellAt y.g j) = true →
    T (cellAt y.g j) = false

theorem scan_step {y : Sys} (hy : y.Ok) {T0 : Coord → Bool} {fuel : Nat}
    (hf : 1 + y.g.drifts * y.g.chans * y.M ≤ fuel) :
    ∀ n k T comps, k + n = y.g.drifts * y.g.chans → ScanInv y T0 k T comps →
      ∃ T' comps', y.scan fuel n (cellAt y.g k) T comps = .ok comps' ∧
        ScanInv y T0 (y.g.drifts * y.g.chans) T' comps' := by
  intro n
  induction n with
  | zero =>
    intro k T comps hk hI
    have hk' : k = y.g.drifts * y.g.chans := by omega
    exact ⟨T, comps, by simp [Sys.scan], hk' ▸ hI⟩
  | succ n ih =>
    intro k T comps hk hI
    have hlt : k < y.g.drifts * y.g.chans := by omega
    have hc : 0 < y.g.chans := by
      rcases Nat.eq_zero_or_pos y.g.chans with h0 | h0
      · rw [h0] at hlt; simp at hlt
      · exact h0
    have hhas := cellAt_has hlt
    have hnext := next_cellAt hc k
    by_cases hcond : T (cellAt y.g k) = true ∧ y.seedOk (cellAt y.g k) = true
    · obtain ⟨hT, hseed⟩ := hcond
      have hfuel : 1 + openCount y.g T * y.M ≤ fuel := by
        have := Nat.mul_le_mul_right y.M (openCount_le y.g T)
        omega
      obtain ⟨T', locs, h1, h2⟩ := bfs_spec hy hhas hT hfuel
      have := ih (k + 1) T' (comps ++ [(cellAt y.g k, locs)]) (by omega) ?_
      · simpa [Sys.scan, hhas, hT, hseed, h1, hnext] using this
      · have hmono : ∀ x, T x = false → T' x = false := by
          intro x hx
          cases hx' : T' x with
          | false => rfl
          | true => rw [h2.sub x hx'] at hx; cases hx
        refine ⟨fun x hx => hI.sub x (h2.sub x hx), ?_, ?_, ?_, ?_⟩
        · intro A hA
          rcases List.mem_append.1 hA with hA | hA
          · obtain ⟨a1, a2, a3, a4, a5, a6, a7⟩ := hI.comp_ok A hA
            refine ⟨a1, a2, a3, a4, a5, ?_, ?_⟩
            · intro l hl
              obtain ⟨b1, b2, b3, b4⟩ := a6 l hl
              exact ⟨b1, b2, b3, hmono l b4⟩
            · intro p hp x hpx hx; exact hmono x (a7 p hp x hpx hx)
          · rw [List.mem_singleton.1 hA]
            refine ⟨hhas, hI.sub _ hT, hseed, h2.nodup, h2.grown, ?_, h2.closed⟩
            intro l hl
            obtain ⟨b1, b2, b3, b4⟩ := h2.locs_ok l hl
            exact ⟨hI.sub _ b1, b2, b3, b4⟩
        · intro x a1 a2 a3
          cases hTx : T x with
          | true => exact ⟨_, List.mem_append_right _ (List.mem_singleton.2 rfl), h2.all x hTx a2 a3⟩
          | false =>
            obtain ⟨A, hA, hx⟩ := hI.all x a1 hTx a3
            exact ⟨A, List.mem_append_left _ hA, hx⟩
        · refine List.pairwise_append.2 ⟨hI.apart, by simp, ?_⟩
          intro A hA B hB p hp x hx
          rw [List.mem_singleton.1 hB] at hx
          obtain ⟨_, _, _, _, _, a6, a7⟩ := hI.comp_ok A hA
          obtain ⟨b1, _, b3, _⟩ := h2.locs_ok x hx
          refine ⟨?_, ?_⟩
          · rintro rfl
            rw [(a6 p hp).2.2.2] at b1; cases b1
          · intro hN
            rw [a7 p hp x hN b3] at b1; cases b1
        · intro j hj b1 b2
          rcases Nat.lt_succ_iff_lt_or_eq.1 hj with hj | hj
          · exact hmono _ (hI.done j hj b1 b2)
          · subst hj; exact h2.seed
    · have := ih (k + 1) T comps (by omega) ?_
      · have hcond' : (T (cellAt y.g k) && y.seedOk (cellAt y.g k)) = false := by
          rw [Bool.and_eq_false_iff]
          by_contra hh
          push Not at hh
          exact hcond ⟨by simpa using hh.1, by simpa using hh.2⟩
        simpa [Sys.scan, hhas, hcond', hnext] using this
      · refine ⟨hI.sub, hI.comp_ok, hI.all, hI.apart, ?_⟩
        intro j hj b1 b2
        rcases Nat.lt_succ_iff_lt_or_eq.1 hj with hj | hj
        · exact hI.done j hj b1 b2
        · subst hj
          cases hTx : T (cellAt y.g j) with
          | true => exact absurd ⟨hTx, b2⟩ hcond
          | false => rfl

/-- What the whole search achieves. -/
structure Found (y : Sys) (T0 : Coord → Bool) (comps : List (Coord × List Coord)) : Prop where
  comp_ok : ∀ A ∈ comps, y.g.has A.1 ∧ T0 A.1 = true ∧ y.seedOk A.1 = true ∧ A.2.Nodup ∧
    (Grown y.N A.1 A.2 ∨ (y.member A.1 = false ∧ A.2 = [])) ∧
    (∀ l ∈ A.2, T0 l = true ∧ y.member l = true ∧ y.g.has l)
  reach : ∀ A ∈ comps, ∀ p ∈ A.2, ∀ x, y.N p x → y.g.has x → T0 x = true → y.member x = true →
    ∃ B ∈ comps, x ∈ B.2
  seeds : ∀ x, y.g.has x → T0 x = true → y.seedOk x = true → y.member x = true →
    ∃ A ∈ comps, x ∈ A.2
  apart : comps.Pairwise fun A B => ∀ p ∈ A.2, ∀ x ∈ B.2, p ≠ x ∧ ¬ y.N p x

theorem scan_spec {y : Sys} (hy : y.Ok) (T0 : Coord → Bool) {fuel : Nat}
    (hf : 1 + y.g.drifts * y.g.chans * y.M ≤ fuel) :
    ∃ comps, y.scan fuel (y.g.drifts * y.g.chans) (0, 0) T0 [] = .ok comps ∧ Found y T0 comps := by
  obtain ⟨T', comps, h1, h2⟩ := scan_step hy (T0 := T0) hf (y.g.drifts * y.g.chans) 0 T0 [] (by omega)
    ⟨fun _ h => h, by simp, fun x h1 h2 => (by rw [h1] at h2; cases h2), by simp, by omega⟩
  have h0 : cellAt y.g 0 = (0, 0) := by simp [cellAt]
  rw [h0] at h1
  refine ⟨comps, h1, ?_, ?_, ?_, h2.apart⟩
  · intro A hA
    obtain ⟨a1, a2, a3, a4, a5, a6, a7⟩ := h2.comp_ok A hA
    refine ⟨a1, a2, a3, a4, a5, fun l hl => ?_⟩
    obtain ⟨b1, b2, b3, _⟩ := a6 l hl
    exact ⟨b1, b2, b3⟩
  · intro A hA p hp x hN hx b1 b2
    obtain ⟨a1, a2, a3, a4, a5, a6, a7⟩ := h2.comp_ok A hA
    exact h2.all x b1 (a7 p hp x hN hx) b2
  · intro x hx b1 b2 b3
    obtain ⟨k, hk, rfl⟩ := has_cellAt hx
    exact h2.all _ b1 (h2.done k hk b1 b2) b3

/-- Two cells related both ways, one of which is in a component, are in the same component. -/
theorem Found.merged {y : Sys} {T0 : Coord → Bool} {comps : List (Coord × List Coord)}
    (h : Found y T0 comps) {A : Coord × List Coord} (hA : A ∈ comps) {p x : Coord} (hp : p ∈ A.2)
    (hpx : y.N p x) (hxp : y.N x p) (hx : y.g.has x) (hT : T0 x = true) (hm : y.member x = true) :
    x ∈ A.2 := by
  obtain ⟨B, hB, hxB⟩ := h.reach A hA p hp x hpx hx hT hm
  obtain ⟨i, hi, rfl⟩ := List.getElem_of_mem hA
  obtain ⟨j, hj, rfl⟩ := List.getElem_of_mem hB
  rcases Nat.lt_trichotomy i j with hij | hij | hij
  · exact absurd hpx ((List.pairwise_iff_getElem.1 h.apart i j hi hj hij) p hp x hxB).2
  · subst hij; exact hxB
  · exact absurd hxp ((List.pairwise_iff_getElem.1 h.apart j i hj hi hij) x hxB p hp).2

end Bliss.Comp
