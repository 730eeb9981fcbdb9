import Verif.Comp.Local

/-!
# The threshold search does not depend on where in the plane the cells lie

Two searches of planes of any widths that agree on a region up to a shift along the channels, from which
neither can leave or enter over cells above half the threshold, report the same clusters there, shifted.
-/

namespace Bliss.Comp

/-- Two searches that agree on the region `W` of the first and `V` of the second, which are closed under
neighbours that can join a cluster; `φ` takes one to the other. -/
structure AgreeAt (y z : Sys) (φ : Coord → Coord) (nb nb' : Coord → List Coord) (W V : Coord → Bool) :
    Prop where
  inj : Function.Injective φ
  onto : ∀ x, ∃ c, φ c = x
  win : ∀ c, V (φ c) = W c
  hasY : ∀ c, W c = true → y.g.has c
  hasZ : ∀ c, V c = true → z.g.has c
  member : ∀ c, W c = true → y.member c = z.member (φ c)
  seed : ∀ c, W c = true → y.seedOk c = z.seedOk (φ c)
  starts : (∀ c, y.seedOk c = true → y.member c = true) ∧ ∀ c, z.seedOk c = true → z.member c = true
  pushY : ∀ T c, y.push T c = (nb c).filter fun x => decide (y.g.has x) && T x
  pushZ : ∀ T c, z.push T c = (nb' c).filter fun x => decide (z.g.has x) && T x
  near : ∀ c, nb' (φ c) = (nb c).map φ
  relY : ∀ c x, y.N c x ↔ x ∈ nb c
  relZ : ∀ c x, z.N c x ↔ x ∈ nb' c
  insideY : ∀ c x, x ∈ nb c → y.g.has c → y.g.has x → y.member c = true → y.member x = true → W c = W x
  insideZ : ∀ c x, x ∈ nb' c → z.g.has c → z.g.has x → z.member c = true → z.member x = true → V c = V x

/-- The open cells that can join a cluster are the same in the region. -/
def OpenAt (y : Sys) (φ : Coord → Coord) (W : Coord → Bool) (T U : Coord → Bool) : Prop :=
  ∀ x, W x = true → y.member x = true → T x = U (φ x)

variable {y z : Sys} {φ : Coord → Coord} {nb nb' : Coord → List Coord} {W V : Coord → Bool}

theorem OpenAt.put {T U : Coord → Bool} (hi : Function.Injective φ) (h : OpenAt y φ W T U) (c : Coord) :
    OpenAt y φ W (put T c false) (put U (φ c) false) := by
  intro x hx hm
  by_cases e : x = c
  · subst e; rw [put_self, put_self]
  · rw [put_ne _ _ e, put_ne _ _ (fun h' => e (hi h'))]; exact h x hx hm

theorem OpenAt.putL {T U : Coord → Bool} (h : OpenAt y φ W T U) {c : Coord}
    (hc : W c = true → y.member c = false) : OpenAt y φ W (Comp.put T c false) U := by
  intro x hx hm
  by_cases e : x = c
  · subst e; rw [hc hx] at hm; cases hm
  · rw [put_ne _ _ e]; exact h x hx hm

theorem OpenAt.putR (hag : AgreeAt y z φ nb nb' W V) {T U : Coord → Bool} (h : OpenAt y φ W T U)
    {c : Coord} (hc : z.member c = false) : OpenAt y φ W T (Comp.put U c false) := by
  intro x hx hm
  by_cases e : φ x = c
  · subst e; rw [hag.member x hx, hc] at hm; cases hm
  · rw [put_ne _ _ e]; exact h x hx hm

/-- Cells queued that can join are in the region and the same. -/
structure QueueAt (y z : Sys) (φ : Coord → Coord) (W V : Coord → Bool) (q r : List Coord) : Prop where
  inY : ∀ x ∈ q, y.member x = true → W x = true
  inZ : ∀ x ∈ r, z.member x = true → V x = true
  same : (q.filter y.member).map φ = r.filter z.member

theorem push_at (hag : AgreeAt y z φ nb nb' W V) {T U : Coord → Bool} (h : OpenAt y φ W T U) {c : Coord}
    (hc : W c = true) (hm : y.member c = true) :
    QueueAt y z φ W V (y.push T c) (z.push U (φ c)) := by
  have hmz : z.member (φ c) = true := by rw [← hag.member c hc]; exact hm
  have hg := hag.hasY c hc
  have hcV : V (φ c) = true := by rw [hag.win]; exact hc
  have hgz := hag.hasZ _ hcV
  refine ⟨?_, ?_, ?_⟩
  · intro x hx hmx
    rw [hag.pushY, List.mem_filter] at hx
    simp only [Bool.and_eq_true, decide_eq_true_eq] at hx
    rw [← hag.insideY c x hx.1 hg hx.2.1 hm hmx, hc]
  · intro x hx hmx
    rw [hag.pushZ, List.mem_filter] at hx
    simp only [Bool.and_eq_true, decide_eq_true_eq] at hx
    rw [← hag.insideZ _ x hx.1 hgz hx.2.1 hmz hmx, hcV]
  rw [hag.pushY, hag.pushZ, hag.near, List.filter_filter, List.filter_filter, List.filter_map]
  congr 1
  refine List.filter_congr fun x hx => ?_
  have hx' : φ x ∈ nb' (φ c) := by rw [hag.near]; exact List.mem_map_of_mem hx
  simp only [Function.comp_apply]
  by_cases hw : W x = true
  · have g1 := hag.hasY x hw
    have g2 := hag.hasZ (φ x) (by rw [hag.win]; exact hw)
    rw [← hag.member x hw]
    cases hmx : y.member x with
    | false => simp
    | true => rw [h x hw hmx]; simp [g1, g2]
  · have e1 : (y.member x && (decide (y.g.has x) && T x)) = false := by
      by_contra hcon
      rw [Bool.not_eq_false] at hcon
      simp only [Bool.and_eq_true, decide_eq_true_eq] at hcon
      exact hw (by rw [← hag.insideY c x hx hg hcon.2.1 hm hcon.1, hc])
    have e2 : (z.member (φ x) && (decide (z.g.has (φ x)) && U (φ x))) = false := by
      by_contra hcon
      rw [Bool.not_eq_false] at hcon
      simp only [Bool.and_eq_true, decide_eq_true_eq] at hcon
      exact hw (by rw [← hag.win x, ← hag.insideZ _ _ hx' hgz hcon.2.1 hmz hcon.1, hcV])
    rw [e1, e2]

theorem QueueAt.append {q r q' r' : List Coord} (h : QueueAt y z φ W V q r)
    (h' : QueueAt y z φ W V q' r') : QueueAt y z φ W V (q ++ q') (r ++ r') := by
  refine ⟨fun x hx => ?_, fun x hx => ?_, ?_⟩
  · rcases List.mem_append.1 hx with hx | hx
    · exact h.inY x hx
    · exact h'.inY x hx
  · rcases List.mem_append.1 hx with hx | hx
    · exact h.inZ x hx
    · exact h'.inZ x hx
  · rw [List.filter_append, List.filter_append, List.map_append, h.same, h'.same]

/-- One flood fill. -/
theorem bfs_at (hag : AgreeAt y z φ nb nb' W V) :
    ∀ n f1 f2 T U q r locs T' U' l m, f1 + f2 ≤ n → OpenAt y φ W T U → QueueAt y z φ W V q r →
      y.bfs f1 T q locs = .ok (T', l) → z.bfs f2 U r (locs.map φ) = .ok (U', m) →
      m = l.map φ ∧ OpenAt y φ W T' U' := by
  intro n
  induction n with
  | zero =>
    intro f1 f2 T U q r locs T' U' l m hn ho hq h1 h2
    obtain rfl : f1 = 0 := by omega
    obtain rfl : f2 = 0 := by omega
    cases q with
    | cons c q => simp [Sys.bfs] at h1
    | nil =>
      cases r with
      | cons c r => simp [Sys.bfs] at h2
      | nil =>
        simp only [Sys.bfs, Outcome.ok.injEq, Prod.mk.injEq] at h1 h2
        obtain ⟨rfl, rfl⟩ := h1
        obtain ⟨rfl, rfl⟩ := h2
        exact ⟨rfl, ho⟩
  | succ n ih =>
    intro f1 f2 T U q r locs T' U' l m hn ho hq h1 h2
    by_cases hy : ∃ c q', q = c :: q' ∧ y.member c = false
    · obtain ⟨c, q', rfl, hm⟩ := hy
      cases f1 with
      | zero => simp [Sys.bfs] at h1
      | succ f1 =>
        have hq' : QueueAt y z φ W V q' r :=
          ⟨fun x hx => hq.inY x (List.mem_cons_of_mem _ hx), hq.inZ, by
            rw [← hq.same, List.filter_cons, hm]; rfl⟩
        by_cases hg : y.g.has c
        · cases hT : T c with
          | true =>
            simp only [Sys.bfs, if_pos hg, hT, hm, if_true] at h1
            exact ih f1 f2 _ _ _ _ _ _ _ _ _ (by omega) (ho.putL fun _ => hm) hq' (by simpa using h1) h2
          | false =>
            simp only [Sys.bfs, if_pos hg, hT] at h1
            exact ih f1 f2 _ _ _ _ _ _ _ _ _ (by omega) ho hq' (by simpa using h1) h2
        · simp [Sys.bfs, hg] at h1
    · by_cases hz : ∃ c r', r = c :: r' ∧ z.member c = false
      · obtain ⟨c, r', rfl, hm⟩ := hz
        cases f2 with
        | zero => simp [Sys.bfs] at h2
        | succ f2 =>
          have hq' : QueueAt y z φ W V q r' :=
            ⟨hq.inY, fun x hx => hq.inZ x (List.mem_cons_of_mem _ hx), by
              rw [hq.same, List.filter_cons, hm]; rfl⟩
          by_cases hg : z.g.has c
          · cases hT : U c with
            | true =>
              simp only [Sys.bfs, if_pos hg, hT, hm, if_true] at h2
              exact ih f1 f2 _ _ _ _ _ _ _ _ _ (by omega) (ho.putR hag hm) hq' h1 (by simpa using h2)
            | false =>
              simp only [Sys.bfs, if_pos hg, hT] at h2
              exact ih f1 f2 _ _ _ _ _ _ _ _ _ (by omega) ho hq' h1 (by simpa using h2)
          · simp [Sys.bfs, hg] at h2
      · cases q with
        | nil =>
          cases r with
          | nil =>
            cases f1 <;> cases f2 <;>
            · simp only [Sys.bfs, Outcome.ok.injEq, Prod.mk.injEq] at h1 h2
              obtain ⟨rfl, rfl⟩ := h1
              obtain ⟨rfl, rfl⟩ := h2
              exact ⟨rfl, ho⟩
          | cons c r =>
            have hm : z.member c = true := by
              by_contra hcon
              exact hz ⟨c, r, rfl, by simpa using hcon⟩
            have := hq.same
            simp [hm] at this
        | cons c q =>
          have hm : y.member c = true := by
            by_contra hcon
            exact hy ⟨c, q, rfl, by simpa using hcon⟩
          cases r with
          | nil =>
            have := hq.same
            simp [hm] at this
          | cons c' r =>
            have hm' : z.member c' = true := by
              by_contra hcon
              exact hz ⟨c', r, rfl, by simpa using hcon⟩
            have hs := hq.same
            rw [List.filter_cons, List.filter_cons, if_pos hm, if_pos hm', List.map_cons] at hs
            obtain ⟨e, hs2⟩ := List.cons.inj hs
            subst e
            have hW : W c = true := hq.inY c List.mem_cons_self hm
            have hq' : QueueAt y z φ W V q r := ⟨fun x hx => hq.inY x (List.mem_cons_of_mem _ hx),
              fun x hx => hq.inZ x (List.mem_cons_of_mem _ hx), hs2⟩
            have hg := hag.hasY c hW
            have hg' := hag.hasZ (φ c) (by rw [hag.win]; exact hW)
            cases f1 with
            | zero => simp [Sys.bfs] at h1
            | succ f1 =>
              cases f2 with
              | zero => simp [Sys.bfs] at h2
              | succ f2 =>
                have hTU := ho c hW hm
                cases hT : T c with
                | true =>
                  simp only [Sys.bfs, if_pos hg, hT, hm, if_true] at h1
                  rw [hT] at hTU
                  simp only [Sys.bfs, if_pos hg', ← hTU, hm', if_true] at h2
                  rw [show locs.map φ ++ [φ c] = (locs ++ [c]).map φ by simp] at h2
                  exact ih f1 f2 _ _ _ _ _ _ _ _ _ (by omega) (ho.put hag.inj c)
                    (hq'.append (push_at hag (ho.put hag.inj c) hW hm)) h1 h2
                | false =>
                  simp only [Sys.bfs, if_pos hg, hT] at h1
                  rw [hT] at hTU
                  simp only [Sys.bfs, if_pos hg', ← hTU] at h2
                  exact ih f1 f2 _ _ _ _ _ _ _ _ _ (by omega) ho hq' (by simpa using h1)
                    (by simpa using h2)

/-! ## The raster scan as a loop over the list of cells -/

def Sys.scanList (y : Sys) (fuel : Nat) : List Coord → (Coord → Bool) → List (Coord × List Coord) →
    Outcome (List (Coord × List Coord))
  | [], _, comps => .ok comps
  | c :: L, T, comps =>
    if T c && y.seedOk c then do
      let (T', locs) ← y.bfs fuel T [c] []
      y.scanList fuel L T' (comps ++ [(c, locs)])
    else y.scanList fuel L T comps

theorem scan_list (y : Sys) (fuel : Nat) : ∀ n k T comps, k + n = y.g.drifts * y.g.chans →
    y.scan fuel n (cellAt y.g k) T comps =
      y.scanList fuel ((List.range' k n).map (cellAt y.g)) T comps := by
  intro n
  induction n with
  | zero => intro k T comps _; rfl
  | succ n ih =>
    intro k T comps hk
    have hhas : y.g.has (cellAt y.g k) := cellAt_has (by omega)
    have hc : 0 < y.g.chans := by
      rcases Nat.eq_zero_or_pos y.g.chans with h0 | h0
      · rw [h0] at hk; simp at hk
      · exact h0
    rw [List.range'_succ, List.map_cons]
    simp only [Sys.scan, Sys.scanList, if_pos hhas, next_cellAt hc]
    split
    · cases y.bfs fuel T [cellAt y.g k] [] with
      | ok r => simp only [Outcome.bind_ok]; exact ih _ _ _ (by omega)
      | throws e => rfl
      | ub => rfl
    · exact ih _ _ _ (by omega)

theorem scan_cells (y : Sys) (fuel : Nat) (T : Coord → Bool) (comps : List (Coord × List Coord)) :
    y.scan fuel (y.g.drifts * y.g.chans) (0, 0) T comps = y.scanList fuel (cellsOf y.g) T comps := by
  have := scan_list y fuel (y.g.drifts * y.g.chans) 0 T comps (by omega)
  have e : cellAt y.g 0 = (0, 0) := by simp [cellAt]
  rw [e] at this
  rw [this, cellsOf, List.range_eq_range']

/-- The shifted cluster. -/
def moveComp (φ : Coord → Coord) (A : Coord × List Coord) : Coord × List Coord := (φ A.1, A.2.map φ)

theorem scan_at (hag : AgreeAt y z φ nb nb' W V) (hy : y.Ok) (hz : z.Ok) {f1 f2 : Nat}
    (hf1 : 1 + y.g.drifts * y.g.chans * y.M ≤ f1) (hf2 : 1 + z.g.drifts * z.g.chans * z.M ≤ f2) :
    ∀ n L K T U cs ds cs' ds', L.length + K.length ≤ n → (∀ c ∈ L, y.g.has c) → (∀ c ∈ K, z.g.has c) →
      (L.filter W).map φ = K.filter V → OpenAt y φ W T U →
      (cs.filter (fun A => W A.1)).map (moveComp φ) = ds.filter (fun A => V A.1) →
      y.scanList f1 L T cs = .ok cs' → z.scanList f2 K U ds = .ok ds' →
      (cs'.filter (fun A => W A.1)).map (moveComp φ) = ds'.filter (fun A => V A.1) := by
  intro n
  induction n with
  | zero =>
    intro L K T U cs ds cs' ds' hn _ _ _ _ hcs h1 h2
    obtain rfl : L = [] := List.eq_nil_of_length_eq_zero (by omega)
    obtain rfl : K = [] := List.eq_nil_of_length_eq_zero (by omega)
    simp only [Sys.scanList, Outcome.ok.injEq] at h1 h2
    rw [← h1, ← h2]; exact hcs
  | succ n ih =>
    intro L K T U cs ds cs' ds' hn hL hK hLK ho hcs h1 h2
    -- what a scan does at a cell
    have stepOf : ∀ (v : Sys) (f : Nat) (c : Coord) (M : List Coord) (T : Coord → Bool)
        (es es' : List (Coord × List Coord)), v.scanList f (c :: M) T es = .ok es' →
        (∃ T' l, T c = true ∧ v.seedOk c = true ∧ v.bfs f T [c] [] = .ok (T', l) ∧
            v.scanList f M T' (es ++ [(c, l)]) = .ok es') ∨
          ((T c && v.seedOk c) = false ∧ v.scanList f M T es = .ok es') := by
      intro v f c M T es es' h
      cases hb : (T c && v.seedOk c) with
      | false => right; simp only [Sys.scanList, hb] at h; exact ⟨rfl, by simpa using h⟩
      | true =>
        left
        simp only [Sys.scanList, hb, if_true] at h
        rw [Bool.and_eq_true] at hb
        cases hr : v.bfs f T [c] [] with
        | ok r => rw [hr] at h; exact ⟨r.1, r.2, hb.1, hb.2, rfl, h⟩
        | throws e => rw [hr] at h; simp at h
        | ub => rw [hr] at h; simp at h
    by_cases hl : ∃ c L', L = c :: L' ∧ W c = false
    · obtain ⟨c, L', rfl, hW⟩ := hl
      have hL' : ∀ c ∈ L', y.g.has c := fun x hx => hL x (List.mem_cons_of_mem _ hx)
      have hLK' : (L'.filter W).map φ = K.filter V := by
        rw [← hLK, List.filter_cons, hW]; rfl
      have hlen : L'.length + K.length ≤ n := by simp only [List.length_cons] at hn; omega
      rcases stepOf y f1 c L' T cs cs' h1 with ⟨T', l, a1, a2, a3, a4⟩ | ⟨a1, a2⟩
      · have hk := fill_outside hy (W := W) (fun c x h => hag.insideY c x ((hag.relY c x).1 h))
          (hL c List.mem_cons_self) a1 hf1 hW a3
        refine ih L' K T' U _ ds _ _ hlen hL' hK hLK' (fun x hx hm => ?_) ?_ a4 h2
        · rw [hk x hx hm]; exact ho x hx hm
        · rw [List.filter_append, ← hcs]; simp [hW]
      · exact ih L' K T U _ ds _ _ hlen hL' hK hLK' ho hcs a2 h2
    · by_cases hk : ∃ c K', K = c :: K' ∧ V c = false
      · obtain ⟨c, K', rfl, hV⟩ := hk
        have hK' : ∀ c ∈ K', z.g.has c := fun x hx => hK x (List.mem_cons_of_mem _ hx)
        have hLK' : (L.filter W).map φ = K'.filter V := by
          rw [hLK, List.filter_cons, hV]; rfl
        have hlen : L.length + K'.length ≤ n := by simp only [List.length_cons] at hn; omega
        rcases stepOf z f2 c K' U ds ds' h2 with ⟨U', l, a1, a2, a3, a4⟩ | ⟨a1, a2⟩
        · have hk := fill_outside hz (W := V) (fun c x h => hag.insideZ c x ((hag.relZ c x).1 h))
            (hK c List.mem_cons_self) a1 hf2 hV a3
          refine ih L K' T U' cs _ _ _ hlen hL hK' hLK' (fun x hx hm => ?_) ?_ h1 a4
          · rw [hk (φ x) (by rw [hag.win]; exact hx) (by rw [← hag.member x hx]; exact hm)]
            exact ho x hx hm
          · rw [List.filter_append, hcs]; simp [hV]
        · exact ih L K' T U cs _ _ _ hlen hL hK' hLK' ho hcs h1 a2
      · cases L with
        | nil =>
          cases K with
          | nil =>
            simp only [Sys.scanList, Outcome.ok.injEq] at h1 h2
            rw [← h1, ← h2]; exact hcs
          | cons c K =>
            have hV : V c = true := by
              by_contra hcon
              exact hk ⟨c, K, rfl, by simpa using hcon⟩
            simp [hV] at hLK
        | cons c L =>
          have hW : W c = true := by
            by_contra hcon
            exact hl ⟨c, L, rfl, by simpa using hcon⟩
          cases K with
          | nil => simp [hW] at hLK
          | cons c' K =>
            have hV : V c' = true := by
              by_contra hcon
              exact hk ⟨c', K, rfl, by simpa using hcon⟩
            rw [List.filter_cons, List.filter_cons, if_pos hW, if_pos hV, List.map_cons] at hLK
            obtain ⟨e, hLK'⟩ := List.cons.inj hLK
            subst e
            have hL' : ∀ c ∈ L, y.g.has c := fun x hx => hL x (List.mem_cons_of_mem _ hx)
            have hK' : ∀ c ∈ K, z.g.has c := fun x hx => hK x (List.mem_cons_of_mem _ hx)
            have hlen : L.length + K.length ≤ n := by simp only [List.length_cons] at hn; omega
            have hseed := hag.seed c hW
            rcases stepOf y f1 c L T cs cs' h1 with ⟨T', l, a1, a2, a3, a4⟩ | ⟨a1, a2⟩
            · have hm := hag.starts.1 c a2
              rcases stepOf z f2 (φ c) K U ds ds' h2 with ⟨U', m, b1, b2, b3, b4⟩ | ⟨b1, b2⟩
              · have hq : QueueAt y z φ W V [c] [φ c] := by
                  have hm' : z.member (φ c) = true := hag.starts.2 _ b2
                  refine ⟨fun x hx _ => ?_, fun x hx _ => ?_, ?_⟩
                  · rw [List.mem_singleton.1 hx]; exact hW
                  · rw [List.mem_singleton.1 hx]; exact hV
                  · simp [hm, hm']
                obtain ⟨rfl, ho'⟩ := bfs_at hag _ _ _ _ _ _ _ [] _ _ _ _ (Nat.le_refl _) ho hq a3 b3
                refine ih L K _ _ _ _ _ _ hlen hL' hK' hLK' ho' ?_ a4 b4
                rw [List.filter_append, List.filter_append, List.map_append, hcs]
                simp [hW, hV, moveComp]
              · exfalso
                rw [← ho c hW hm, a1, ← hseed, a2] at b1
                cases b1
            · rcases stepOf z f2 (φ c) K U ds ds' h2 with ⟨U', m, b1, b2, b3, b4⟩ | ⟨b1, b2⟩
              · exfalso
                have hm : y.member c = true := by rw [hag.member c hW]; exact hag.starts.2 _ b2
                rw [ho c hW hm, b1, hseed, b2] at a1
                cases a1
              · exact ih L K _ _ _ _ _ _ hlen hL' hK' hLK' ho hcs a2 b2

/-! ## The threshold search -/

/-- The cell `k` channels further. -/
def along (k : Int) (c : Coord) : Coord := (c.1, c.2 + k)

theorem along_inj (k : Int) : Function.Injective (along k) := by
  rintro ⟨a, b⟩ ⟨c, d⟩ h
  simp only [along, Prod.mk.injEq] at h
  ext
  · exact h.1
  · show b = d
    omega

/-- The raster order. -/
def Before (c x : Coord) : Prop := c.1 < x.1 ∨ c.1 = x.1 ∧ c.2 < x.2

theorem cellsOf_sorted (g : Grid) : (cellsOf g).Pairwise Before := by
  rw [cellsOf, List.pairwise_map]
  refine List.Pairwise.imp_of_mem (fun {i j} _ _ h => ?_) List.pairwise_lt_range
  unfold Before cellAt
  simp only
  have h1 : i / g.chans ≤ j / g.chans := Nat.div_le_div_right h.le
  have h2 := Nat.div_add_mod i g.chans
  have h3 := Nat.div_add_mod j g.chans
  rcases Nat.lt_or_eq_of_le h1 with h4 | h4
  · left; exact_mod_cast h4
  · right
    rw [h4] at h2 ⊢
    refine ⟨rfl, ?_⟩
    have : i % g.chans < j % g.chans := by omega
    exact_mod_cast this

theorem region_cells {g g' : Grid} {a b k : Int} (hdr : g.drifts = g'.drifts) (h1 : 0 ≤ a)
    (h2 : b ≤ g.chans) (h3 : 0 ≤ a + k) (h4 : b + k ≤ g'.chans) :
    ((cellsOf g).filter (inRange g a b)).map (along k) =
      (cellsOf g').filter (inRange g' (a + k) (b + k)) := by
  have s1 : (((cellsOf g).filter (inRange g a b)).map (along k)).Pairwise Before := by
    rw [List.pairwise_map]
    refine ((cellsOf_sorted g).filter _).imp fun {c x} h => ?_
    unfold Before along at *
    simp only
    omega
  have s2 : ((cellsOf g').filter (inRange g' (a + k) (b + k))).Pairwise Before :=
    (cellsOf_sorted g').filter _
  have nd : ∀ {l : List Coord}, l.Pairwise Before → l.Nodup := fun h => h.imp fun {c x} h e => by
    subst e
    unfold Before at h
    omega
  refine List.Perm.eq_of_pairwise (le := Before) (fun c x _ _ h h' => ?_) s1 s2
    ((List.perm_ext_iff_of_nodup (nd s1) (nd s2)).2 fun x => ?_)
  · unfold Before at h h'
    omega
  · rw [List.mem_map, List.mem_filter, mem_cellsOf]
    simp only [List.mem_filter, mem_cellsOf, inRange, decide_eq_true_eq]
    unfold Grid.has
    constructor
    · rintro ⟨c, ⟨⟨c1, c2, c3, c4⟩, _, c5, c6⟩, rfl⟩
      simp only [along]
      omega
    · rintro ⟨⟨c1, c2, c3, c4⟩, _, c5, c6⟩
      refine ⟨(x.1, x.2 - k), ?_, ?_⟩
      · dsimp only
        omega
      · ext <;> simp [along]

section
variable {F : Type} [Sub F] [Div F] [LT F] [DecidableLT F] [OfNat F 0] [OfNat F 2]

/-- Two searches with the same settings that agree on a range of channels up to a shift by `k`, next to
which, for as many channels as the neighbour distance, no cell is above half the threshold. -/
structure SameMoved (s u : Search F) (k a b : Int) : Prop where
  drifts : s.grid.drifts = u.grid.drifts
  inS : 0 ≤ a ∧ b ≤ s.grid.chans
  inU : 0 ≤ a + k ∧ b + k ≤ u.grid.chans
  floor : s.floor = u.floor
  noise : s.noise = u.noise
  thr : s.thr = u.thr
  dist : s.dist = u.dist
  val : ∀ c, s.grid.has c → a ≤ c.2 → c.2 < b → s.val c = u.val (along k c)
  rfi : ∀ c, s.grid.has c → a ≤ c.2 → c.2 < b → s.rfi c = u.rfi (along k c)
  quietS : ∀ c, s.grid.has c → (a - s.dist ≤ c.2 ∧ c.2 < a ∨ b ≤ c.2 ∧ c.2 < b + s.dist) →
    ¬ s.thr / 2 < s.snr c
  quietU : ∀ c, u.grid.has c →
    (a + k - s.dist ≤ c.2 ∧ c.2 < a + k ∨ b + k ≤ c.2 ∧ c.2 < b + k + s.dist) →
    ¬ u.thr / 2 < u.snr c

theorem SameMoved.win {s u : Search F} {k a b : Int} (h : SameMoved s u k a b) (c : Coord) :
    inRange u.grid (a + k) (b + k) (along k c) = inRange s.grid a b c := by
  have h1 := h.inS
  have h2 := h.inU
  have h3 := h.drifts
  unfold inRange Grid.has along
  simp only [decide_eq_decide]
  omega

theorem SameMoved.snr {s u : Search F} {k a b : Int} (h : SameMoved s u k a b) {c : Coord}
    (hc : inRange s.grid a b c = true) : s.snr c = u.snr (along k c) := by
  simp only [inRange, decide_eq_true_eq] at hc
  unfold Search.snr
  rw [h.val c hc.1 hc.2.1 hc.2.2, h.floor, h.noise]
  rfl

theorem SameMoved.agree {s u : Search F} {k a b : Int} (h : SameMoved s u k a b)
    (hhalf : ∀ v : F, s.thr < v → s.thr / 2 < v) :
    AgreeAt (threshSys s) (threshSys u) (along k) (fun c => (l1Offsets s.dist).map (shift c))
      (fun c => (l1Offsets u.dist).map (shift c)) (inRange s.grid a b)
      (inRange u.grid (a + k) (b + k)) := by
  refine ⟨along_inj k, fun x => ⟨(x.1, x.2 - k), ?_⟩, h.win, fun c hc => ?_, fun c hc => ?_,
    fun c hc => ?_, fun c hc => ?_, ⟨fun c hc => ?_, fun c hc => ?_⟩, fun T c => rfl,
    fun T c => rfl, fun c => ?_, fun c x => Iff.rfl, fun c x => Iff.rfl,
    fun c x hx g1 g2 m1 m2 => ?_, fun c x hx g1 g2 m1 m2 => ?_⟩
  · ext <;> simp [along]
  · simp only [inRange, decide_eq_true_eq] at hc; exact hc.1
  · simp only [inRange, decide_eq_true_eq] at hc; exact hc.1
  · show decide (s.thr / 2 < s.snr c) = decide (u.thr / 2 < u.snr (along k c))
    rw [h.snr hc, h.thr]
  · show decide (s.thr < s.snr c) = decide (u.thr < u.snr (along k c))
    rw [h.snr hc, h.thr]
  · simp only [threshSys, decide_eq_true_eq] at hc ⊢
    exact hhalf _ hc
  · simp only [threshSys, decide_eq_true_eq] at hc ⊢
    rw [← h.thr] at hc ⊢
    exact hhalf _ hc
  · rw [h.dist, List.map_map]
    refine List.map_congr_left fun o _ => ?_
    ext
    · rfl
    · show c.2 + k + o.2 = c.2 + o.2 + k
      omega
  · simp only [threshSys, decide_eq_true_eq] at m1 m2
    exact side h.quietS hx g1 g2 m1 m2
  · simp only [threshSys, decide_eq_true_eq] at m1 m2
    refine side (s := u) (fun c hc => ?_) hx g1 g2 m1 m2
    have := h.quietU c hc
    rw [h.dist] at this
    exact this

/-- The cluster `k` channels further. -/
def moveHit (k : Int) (p : Protohit F) : Protohit F :=
  { p with
    indexMax := along k p.indexMax
    indexCenter := along k p.indexCenter
    locations := p.locations.map (along k) }

def moveCore (k : Int) (p : Protohit F) : Protohit F :=
  { p with
    indexMax := along k p.indexMax
    locations := p.locations.map (along k) }

omit [Sub F] [Div F] [LT F] [DecidableLT F] [OfNat F 0] [OfNat F 2] in
theorem extent_move (k d : Int) : ∀ (ls : List Coord) (lo hi : Int),
    extent d (ls.map (along k)) (lo + k, hi + k) =
      ((extent d ls (lo, hi)).1 + k, (extent d ls (lo, hi)).2 + k) := by
  intro ls
  induction ls with
  | nil => intro lo hi; rfl
  | cons l ls ih =>
    intro lo hi
    simp only [List.map_cons, extent, along]
    split
    · by_cases e1 : hi < l.2
      · rw [if_pos e1, if_pos (by omega)]; exact ih _ _
      · rw [if_neg e1, if_neg (by omega)]
        by_cases e2 : l.2 < lo
        · rw [if_pos e2, if_pos (by omega)]; exact ih _ _
        · rw [if_neg e2, if_neg (by omega)]; exact ih _ _
    · exact ih _ _

omit [Sub F] [Div F] [LT F] [DecidableLT F] [OfNat F 0] [OfNat F 2] in
theorem extent_ge (m d : Int) : ∀ (ls : List Coord) (lo hi : Int), (∀ l ∈ ls, m ≤ l.2) → m ≤ lo →
    m ≤ hi → m ≤ (extent d ls (lo, hi)).1 ∧ m ≤ (extent d ls (lo, hi)).2 := by
  intro ls
  induction ls with
  | nil => intro lo hi _ h1 h2; exact ⟨h1, h2⟩
  | cons l ls ih =>
    intro lo hi h h1 h2
    have hl := h l List.mem_cons_self
    have hls : ∀ l ∈ ls, m ≤ l.2 := fun x hx => h x (List.mem_cons_of_mem _ hx)
    unfold extent
    split
    · split
      · exact ih _ _ hls h1 hl
      · split
        · exact ih _ _ hls hl h2
        · exact ih _ _ hls h1 h2
    · exact ih _ _ hls h1 h2

omit [Sub F] [Div F] [LT F] [DecidableLT F] [OfNat F 0] [OfNat F 2] in
theorem finishHit_move {k m : Int} {p : Protohit F} (h0 : 0 ≤ m) (h0' : 0 ≤ m + k)
    (hl : ∀ l ∈ p.locations, m ≤ l.2) (hp : m ≤ p.indexMax.2) :
    finishHit (moveCore k p) = moveHit k (finishHit p) := by
  have e1 := extent_move k p.indexMax.1 p.locations p.indexMax.2 p.indexMax.2
  obtain ⟨g1, g2⟩ := extent_ge m p.indexMax.1 p.locations p.indexMax.2 p.indexMax.2 hl hp hp
  unfold finishHit moveHit moveCore
  simp only
  rw [show (along k p.indexMax).1 = p.indexMax.1 from rfl,
    show (along k p.indexMax).2 = p.indexMax.2 + k from rfl, e1]
  simp only [along, Protohit.mk.injEq, true_and, and_true]
  refine ⟨?_, ?_⟩
  · rw [Prod.mk.injEq]
    refine ⟨rfl, ?_⟩
    rw [Int.tdiv_eq_ediv_of_nonneg (by omega), Int.tdiv_eq_ediv_of_nonneg (by omega)]
    omega
  · omega

theorem report_move {s u : Search F} {k a b : Int} (h : SameMoved s u k a b) {fltMin : F}
    {A : Coord × List Coord} {L : List Coord} (hhead : A.2 = A.1 :: L)
    (h1 : ∀ l ∈ A.2, inRange s.grid a b l = true) (hmin : fltMin < s.snr A.1) :
    report u fltMin (moveComp (along k) A) = moveHit k (report s fltMin A) := by
  have hA1 : inRange s.grid a b A.1 = true := h1 _ (by rw [hhead]; exact List.mem_cons_self)
  have hval : ∀ c, inRange s.grid a b c = true →
      s.val c = u.val (along k c) ∧ s.rfi c = u.rfi (along k c) := by
    intro c hc
    simp only [inRange, decide_eq_true_eq] at hc
    exact ⟨h.val c hc.1 hc.2.1 hc.2.2, h.rfi c hc.1 hc.2.1 hc.2.2⟩
  have hadd : ∀ (p : Protohit F) (c : Coord), inRange s.grid a b c = true →
      u.add (along k A.1) (moveCore k p) (along k c) = moveCore k (s.add A.1 p c) := by
    intro p c hc
    have e := h.snr hc
    obtain ⟨v1, v2⟩ := hval c hc
    obtain ⟨w1, w2⟩ := hval A.1 hA1
    unfold Search.add Search.track
    rw [show (moveCore k p).snr = p.snr from rfl, ← e]
    by_cases hlt : p.snr < s.snr c
    · rw [if_pos hlt, if_pos hlt]
      simp [moveCore, v1, w2, h.noise, e]
      rfl
    · rw [if_neg hlt, if_neg hlt]
      simp [moveCore]
  have hfirst : u.add (along k A.1) (freshHit fltMin) (along k A.1) =
      moveCore k (s.add A.1 (freshHit fltMin) A.1) := by
    have e := h.snr hA1
    obtain ⟨w1, w2⟩ := hval A.1 hA1
    unfold Search.add Search.track
    rw [if_pos (show (freshHit fltMin).snr < s.snr A.1 from hmin),
      if_pos (show (freshHit fltMin).snr < u.snr (along k A.1) by rw [← e]; exact hmin)]
    simp [moveCore, w1, w2, h.noise, freshHit, e]
    rfl
  have hfold : ∀ (M : List Coord) (p : Protohit F), (∀ l ∈ M, inRange s.grid a b l = true) →
      (M.map (along k)).foldl (u.add (along k A.1)) (moveCore k p) =
        moveCore k (M.foldl (s.add A.1) p) := by
    intro M
    induction M with
    | nil => intro p _; rfl
    | cons c M ih =>
      intro p hM
      rw [List.map_cons, List.foldl_cons, List.foldl_cons, hadd p c (hM c List.mem_cons_self)]
      exact ih _ fun l hl => hM l (List.mem_cons_of_mem _ hl)
  have hpk := peak_first (s := s) hmin L
  rw [← hhead] at hpk
  unfold report
  show finishHit ((A.2.map (along k)).foldl (u.add (along k A.1)) (freshHit fltMin)) = _
  have : (A.2.map (along k)).foldl (u.add (along k A.1)) (freshHit fltMin) =
      moveCore k (A.2.foldl (s.add A.1) (freshHit fltMin)) := by
    rw [hhead, List.map_cons, List.foldl_cons, List.foldl_cons, hfirst]
    exact hfold L _ fun l hl => h1 l (by rw [hhead]; exact List.mem_cons_of_mem _ hl)
  rw [this]
  have hin : ∀ l ∈ A.2, a ≤ l.2 := by
    intro l hl
    have := h1 l hl
    simp only [inRange, decide_eq_true_eq] at this
    exact this.2.1
  refine finishHit_move h.inS.1 h.inU.1 ?_ (hin _ hpk.mem)
  rw [foldl_locations]
  simpa [freshHit] using hin

/-- The clusters found in the range are those found in the other, `k` channels further, with all their
fields and in the same order. -/
theorem findThresh_move {s u : Search F} {k a b : Int} (h : SameMoved s u k a b) (fltMin : F)
    (hhalf : ∀ v : F, s.thr < v → s.thr / 2 < v) (hmin : ∀ v : F, s.thr < v → fltMin < v) :
    ∃ hs hu, findThresh s fltMin = .ok hs ∧ findThresh u fltMin = .ok hu ∧
      (hs.filter (fun p => decide (a ≤ p.indexMax.2 ∧ p.indexMax.2 < b))).map (moveHit k) =
        hu.filter (fun p => decide (a + k ≤ p.indexMax.2 ∧ p.indexMax.2 < b + k)) := by
  have hag := h.agree hhalf
  obtain ⟨cs, c1, c2⟩ := scan_spec (threshSys_ok s) (unv fun _ => 0)
    (fuel := 1 + s.grid.drifts * s.grid.chans * (l1Offsets s.dist).length) (Nat.le_refl _)
  obtain ⟨ds, d1, d2⟩ := scan_spec (threshSys_ok u) (unv fun _ => 0)
    (fuel := 1 + u.grid.drifts * u.grid.chans * (l1Offsets u.dist).length) (Nat.le_refl _)
  have c1' := c1
  have d1' := d1
  rw [scan_cells] at c1' d1'
  have hsame := scan_at hag (threshSys_ok s) (threshSys_ok u) (Nat.le_refl _) (Nat.le_refl _) _
    (cellsOf s.grid) (cellsOf u.grid) (unv fun _ => 0) (unv fun _ => 0) [] [] cs ds (Nat.le_refl _) (fun c hc => mem_cellsOf.1 hc)
    (fun c hc => mem_cellsOf.1 hc) (region_cells h.drifts h.inS.1 h.inS.2 h.inU.1 h.inU.2)
    (fun _ _ _ => rfl) rfl c1' d1'
  -- where the peak of a cluster is
  have peak : ∀ (v : Search F) (vs : List (Coord × List Coord)) (a b : Int), v.thr = s.thr →
      (∀ c x, (threshSys v).N c x → v.grid.has c → v.grid.has x → (threshSys v).member c = true →
        (threshSys v).member x = true → inRange v.grid a b c = inRange v.grid a b x) →
      Found (threshSys v) (unv fun _ => 0) vs → ∀ A ∈ vs,
      (decide (a ≤ (report v fltMin A).indexMax.2 ∧ (report v fltMin A).indexMax.2 < b) =
        inRange v.grid a b A.1) ∧ (∀ l ∈ A.2, inRange v.grid a b l = inRange v.grid a b A.1) ∧
      fltMin < v.snr A.1 ∧ ∃ L, A.2 = A.1 :: L := by
    intro v vs a b e2 hin hf A hA
    obtain ⟨_, _, a3, _, a5, a6⟩ := hf.comp_ok A hA
    have ht : v.thr < v.snr A.1 := by simpa [threshSys] using a3
    rcases a5 with hgr | hgr
    · obtain ⟨L, hL⟩ := hgr.head
      have hmn := hmin _ (by rw [← e2]; exact ht)
      have hp := peak_first (s := v) hmn L
      rw [← hL] at hp
      have hside := grown_side (W := inRange v.grid a b) hin hgr
        (fun l hl => ⟨(a6 l hl).2.1, (a6 l hl).2.2⟩)
      refine ⟨?_, hside, hmn, L, hL⟩
      have hm := hp.mem
      have hh : v.grid.has (report v fltMin A).indexMax := (a6 _ hm).2.2
      rw [← hside _ hm]
      show decide (a ≤ (report v fltMin A).indexMax.2 ∧ (report v fltMin A).indexMax.2 < b) =
        inRange v.grid a b (report v fltMin A).indexMax
      unfold inRange
      simp only [hh, true_and]
    · exact absurd hgr.1 (by
        have := hhalf _ (by rw [← e2]; exact ht)
        rw [← e2] at this
        simpa [threshSys] using this)
  have pS := peak s cs a b rfl (fun c x => hag.insideY c x) c2
  have pU := peak u ds (a + k) (b + k) h.thr.symm (fun c x => hag.insideZ c x) d2
  refine ⟨_, _, threshScan_eq _ _ _ [] _ c1, threshScan_eq _ _ _ [] _ d1, ?_⟩
  rw [List.filter_map, List.filter_map]
  have f1 : cs.filter ((fun p : Protohit F => decide (a ≤ p.indexMax.2 ∧ p.indexMax.2 < b)) ∘
      report s fltMin) = cs.filter (fun A => inRange s.grid a b A.1) :=
    List.filter_congr fun A hA => (pS A hA).1
  have f2 : ds.filter ((fun p : Protohit F =>
      decide (a + k ≤ p.indexMax.2 ∧ p.indexMax.2 < b + k)) ∘
      report u fltMin) = ds.filter (fun A => inRange u.grid (a + k) (b + k) A.1) :=
    List.filter_congr fun A hA => (pU A hA).1
  rw [f1, f2, ← hsame, List.map_map, List.map_map]
  refine List.map_congr_left fun A hA => ?_
  obtain ⟨hA, hW⟩ := List.mem_filter.1 hA
  obtain ⟨-, g2, g3, L, g4⟩ := pS A hA
  exact (report_move h g4 (fun l hl => by rw [g2 l hl]; exact hW) g3).symm

end

end Bliss.Comp
