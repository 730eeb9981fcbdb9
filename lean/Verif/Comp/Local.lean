import Verif.Comp.Lemmas

/-!
# Locality of the threshold search

Two searches that agree on a region of the plane, from which neither can leave or enter over cells
above half the threshold, report the same clusters there.
-/

namespace Bliss.Comp

/-- Two searches that agree on the region `W`, which is closed under neighbours that can join a
cluster. -/
structure Agree (y z : Sys) (nb : Coord → List Coord) (W : Coord → Bool) : Prop where
  grid : y.g = z.g
  member : ∀ c, W c = true → y.member c = z.member c
  seed : ∀ c, W c = true → y.seedOk c = z.seedOk c
  starts : (∀ c, y.seedOk c = true → y.member c = true) ∧ ∀ c, z.seedOk c = true → z.member c = true
  pushY : ∀ T c, y.push T c = (nb c).filter fun x => decide (y.g.has x) && T x
  pushZ : ∀ T c, z.push T c = (nb c).filter fun x => decide (z.g.has x) && T x
  relY : ∀ c x, y.N c x ↔ x ∈ nb c
  relZ : ∀ c x, z.N c x ↔ x ∈ nb c
  insideY : ∀ c x, x ∈ nb c → y.g.has c → y.g.has x → y.member c = true → y.member x = true → W c = W x
  insideZ : ∀ c x, x ∈ nb c → z.g.has c → z.g.has x → z.member c = true → z.member x = true → W c = W x

/-- The open cells that can join a cluster are the same in the region. -/
def SameOpen (y : Sys) (W : Coord → Bool) (T U : Coord → Bool) : Prop :=
  ∀ x, W x = true → y.member x = true → T x = U x

variable {y z : Sys} {nb : Coord → List Coord} {W : Coord → Bool}

theorem SameOpen.put {T U : Coord → Bool} (h : SameOpen y W T U) (c : Coord) :
    SameOpen y W (put T c false) (put U c false) := by
  intro x hx hm
  by_cases e : x = c
  · subst e; rw [put_self, put_self]
  · rw [put_ne _ _ e, put_ne _ _ e]; exact h x hx hm

theorem SameOpen.putL {T U : Coord → Bool} (h : SameOpen y W T U) {c : Coord}
    (hc : W c = true → y.member c = false) : SameOpen y W (Comp.put T c false) U := by
  intro x hx hm
  by_cases e : x = c
  · subst e; rw [hc hx] at hm; cases hm
  · rw [put_ne _ _ e]; exact h x hx hm

theorem SameOpen.symm (hag : Agree y z nb W) {T U : Coord → Bool} (h : SameOpen y W T U) :
    SameOpen z W U T := fun x hx hm => (h x hx (by rw [hag.member x hx]; exact hm)).symm

theorem Agree.symm (h : Agree y z nb W) : Agree z y nb W :=
  ⟨h.grid.symm, fun c hc => (h.member c hc).symm, fun c hc => (h.seed c hc).symm, h.starts.symm,
    h.pushZ, h.pushY, h.relZ, h.relY, h.insideZ, h.insideY⟩

/-- Cells queued that can join are in the region and the same. -/
structure SameQueue (y z : Sys) (W : Coord → Bool) (q r : List Coord) : Prop where
  inY : ∀ x ∈ q, y.member x = true → W x = true
  inZ : ∀ x ∈ r, z.member x = true → W x = true
  same : q.filter y.member = r.filter z.member

theorem push_same (hag : Agree y z nb W) {T U : Coord → Bool} (h : SameOpen y W T U) {c : Coord}
    (hc : W c = true) (hm : y.member c = true) (hg : y.g.has c) :
    SameQueue y z W (y.push T c) (z.push U c) := by
  have hmz : z.member c = true := by rw [← hag.member c hc]; exact hm
  have hgz : z.g.has c := by rw [← hag.grid]; exact hg
  have wy : ∀ x ∈ y.push T c, y.member x = true → W x = true := by
    intro x hx hmx
    rw [hag.pushY, List.mem_filter] at hx
    simp only [Bool.and_eq_true, decide_eq_true_eq] at hx
    rw [← hag.insideY c x hx.1 hg hx.2.1 hm hmx, hc]
  have wz : ∀ x ∈ z.push U c, z.member x = true → W x = true := by
    intro x hx hmx
    rw [hag.pushZ, List.mem_filter] at hx
    simp only [Bool.and_eq_true, decide_eq_true_eq] at hx
    rw [← hag.insideZ c x hx.1 hgz hx.2.1 hmz hmx, hc]
  refine ⟨wy, wz, ?_⟩
  rw [hag.pushY, hag.pushZ, List.filter_filter, List.filter_filter]
  refine List.filter_congr fun x hx => ?_
  rw [hag.grid]
  by_cases hw : W x = true
  · rw [hag.member x hw]
    cases hmx : z.member x with
    | false => simp
    | true => rw [h x hw (by rw [hag.member x hw]; exact hmx)]
  · have hno : ∀ {v : Sys}, v.g = z.g → (v.g.has c → v.g.has x → v.member c = true →
        v.member x = true → W c = W x) → v.member c = true → v.member x = true → ¬ z.g.has x := by
      intro v hv hin h1 h2 h3
      rw [hc] at hin
      exact hw (hin (by rw [hv]; exact hgz) (by rw [hv]; exact h3) h1 h2).symm
    by_cases hgx : z.g.has x
    · have e1 : y.member x = false := by
        by_contra hcon
        rw [Bool.not_eq_false] at hcon
        exact hno hag.grid (hag.insideY c x hx) hm hcon hgx
      have e2 : z.member x = false := by
        by_contra hcon
        rw [Bool.not_eq_false] at hcon
        exact hno rfl (hag.insideZ c x hx) hmz hcon hgx
      rw [e1, e2]; rfl
    · simp [hgx]

theorem SameQueue.append {q r q' r' : List Coord} (h : SameQueue y z W q r)
    (h' : SameQueue y z W q' r') : SameQueue y z W (q ++ q') (r ++ r') := by
  refine ⟨fun x hx => ?_, fun x hx => ?_, ?_⟩
  · rcases List.mem_append.1 hx with hx | hx
    · exact h.inY x hx
    · exact h'.inY x hx
  · rcases List.mem_append.1 hx with hx | hx
    · exact h.inZ x hx
    · exact h'.inZ x hx
  · rw [List.filter_append, List.filter_append, h.same, h'.same]

/-- One flood fill. -/
theorem bfs_same (hag : Agree y z nb W) :
    ∀ n f1 f2 T U q r locs T' U' l m, f1 + f2 ≤ n → SameOpen y W T U → SameQueue y z W q r →
      y.bfs f1 T q locs = .ok (T', l) → z.bfs f2 U r locs = .ok (U', m) →
      l = m ∧ SameOpen y W T' U' := by
  intro n
  induction n with
  | zero =>
    intro f1 f2 T U q r locs T' U' l m hn ho hq h1 h2
    obtain rfl : f1 = 0 := by omega
    obtain rfl : f2 = 0 := by omega
    cases q with
    | cons c q => simp [Sys.bfs] at h1
    | nil =>
      cases r with
      | cons c r => simp [Sys.bfs] at h2
      | nil =>
        simp only [Sys.bfs, Outcome.ok.injEq, Prod.mk.injEq] at h1 h2
        obtain ⟨rfl, rfl⟩ := h1
        obtain ⟨rfl, rfl⟩ := h2
        exact ⟨rfl, ho⟩
  | succ n ih =>
    intro f1 f2 T U q r locs T' U' l m hn ho hq h1 h2
    -- a step of the first search over a cell that cannot join
    by_cases hy : ∃ c q', q = c :: q' ∧ y.member c = false
    · obtain ⟨c, q', rfl, hm⟩ := hy
      cases f1 with
      | zero => simp [Sys.bfs] at h1
      | succ f1 =>
        have hq' : SameQueue y z W q' r := ⟨fun x hx => hq.inY x (List.mem_cons_of_mem _ hx), hq.inZ, by
          rw [← hq.same, List.filter_cons, hm]; rfl⟩
        by_cases hg : y.g.has c
        · cases hT : T c with
          | true =>
            simp only [Sys.bfs, if_pos hg, hT, hm, if_true] at h1
            exact ih f1 f2 _ _ _ _ _ _ _ _ _ (by omega) (ho.putL fun _ => hm) hq' (by simpa using h1) h2
          | false =>
            simp only [Sys.bfs, if_pos hg, hT] at h1
            exact ih f1 f2 _ _ _ _ _ _ _ _ _ (by omega) ho hq' (by simpa using h1) h2
        · simp [Sys.bfs, hg] at h1
    · by_cases hz : ∃ c r', r = c :: r' ∧ z.member c = false
      · obtain ⟨c, r', rfl, hm⟩ := hz
        cases f2 with
        | zero => simp [Sys.bfs] at h2
        | succ f2 =>
          have hq' : SameQueue y z W q r' :=
            ⟨hq.inY, fun x hx => hq.inZ x (List.mem_cons_of_mem _ hx), by
              rw [hq.same, List.filter_cons, hm]; rfl⟩
          by_cases hg : z.g.has c
          · cases hT : U c with
            | true =>
              simp only [Sys.bfs, if_pos hg, hT, hm, if_true] at h2
              have ho' : SameOpen y W T (put U c false) :=
                ((ho.symm hag).putL fun _ => hm).symm hag.symm
              exact ih f1 f2 _ _ _ _ _ _ _ _ _ (by omega) ho' hq' h1 (by simpa using h2)
            | false =>
              simp only [Sys.bfs, if_pos hg, hT] at h2
              exact ih f1 f2 _ _ _ _ _ _ _ _ _ (by omega) ho hq' h1 (by simpa using h2)
          · simp [Sys.bfs, hg] at h2
      · cases q with
        | nil =>
          cases r with
          | nil =>
            cases f1 <;> cases f2 <;>
            · simp only [Sys.bfs, Outcome.ok.injEq, Prod.mk.injEq] at h1 h2
              obtain ⟨rfl, rfl⟩ := h1
              obtain ⟨rfl, rfl⟩ := h2
              exact ⟨rfl, ho⟩
          | cons c r =>
            have hm : z.member c = true := by
              by_contra hcon
              exact hz ⟨c, r, rfl, by simpa using hcon⟩
            have := hq.same
            simp [hm] at this
        | cons c q =>
          have hm : y.member c = true := by
            by_contra hcon
            exact hy ⟨c, q, rfl, by simpa using hcon⟩
          cases r with
          | nil =>
            have := hq.same
            simp [hm] at this
          | cons c' r =>
            have hm' : z.member c' = true := by
              by_contra hcon
              exact hz ⟨c', r, rfl, by simpa using hcon⟩
            have hs := hq.same
            rw [List.filter_cons, List.filter_cons, if_pos hm, if_pos hm'] at hs
            obtain ⟨e, hs2⟩ := List.cons.inj hs
            subst e
            have hW : W c = true := hq.inY c List.mem_cons_self hm
            have hq' : SameQueue y z W q r := ⟨fun x hx => hq.inY x (List.mem_cons_of_mem _ hx),
              fun x hx => hq.inZ x (List.mem_cons_of_mem _ hx), hs2⟩
            cases f1 with
            | zero => simp [Sys.bfs] at h1
            | succ f1 =>
              cases f2 with
              | zero => simp [Sys.bfs] at h2
              | succ f2 =>
                by_cases hg : y.g.has c
                · have hg' : z.g.has c := by rw [← hag.grid]; exact hg
                  have hTU := ho c hW hm
                  cases hT : T c with
                  | true =>
                    simp only [Sys.bfs, if_pos hg, hT, hm, if_true] at h1
                    rw [hT] at hTU
                    simp only [Sys.bfs, if_pos hg', ← hTU, hm', if_true] at h2
                    exact ih f1 f2 _ _ _ _ _ _ _ _ _ (by omega) (ho.put c)
                      (hq'.append (push_same hag (ho.put c) hW hm hg)) h1 h2
                  | false =>
                    simp only [Sys.bfs, if_pos hg, hT] at h1
                    rw [hT] at hTU
                    simp only [Sys.bfs, if_pos hg', ← hTU] at h2
                    exact ih f1 f2 _ _ _ _ _ _ _ _ _ (by omega) ho hq' (by simpa using h1)
                      (by simpa using h2)
                · simp [Sys.bfs, hg] at h1

/-- All cells of a cluster are on the same side as its first cell. -/
theorem grown_side (hin : ∀ c x, y.N c x → y.g.has c → y.g.has x → y.member c = true →
      y.member x = true → W c = W x) {s : Coord} {K : List Coord} (h : Grown y.N s K)
    (hok : ∀ l ∈ K, y.member l = true ∧ y.g.has l) : ∀ l ∈ K, W l = W s := by
  induction h with
  | one => intro l hl; rw [List.mem_singleton.1 hl]
  | @more K x p hK hp hN ih =>
    have hK' := ih fun l hl => hok l (List.mem_append_left _ hl)
    intro l hl
    rcases List.mem_append.1 hl with hl | hl
    · exact hK' l hl
    · rw [List.mem_singleton.1 hl, ← hK' p hp]
      have a := hok p (List.mem_append_left _ hp)
      have b := hok x (List.mem_append_right _ List.mem_cons_self)
      exact (hin p x hN a.2 b.2 a.1 b.1).symm

/-- A flood fill from outside the region closes no cell in it that can join a cluster. -/
theorem fill_outside (hy : y.Ok) (hin : ∀ c x, y.N c x → y.g.has c → y.g.has x → y.member c = true →
      y.member x = true → W c = W x) {T T' : Coord → Bool} {s : Coord} (hs : y.g.has s)
    (hT : T s = true) {fuel : Nat} (hf : 1 + y.g.drifts * y.g.chans * y.M ≤ fuel) (hW : W s = false)
    {locs : List Coord} (hrun : y.bfs fuel T [s] [] = .ok (T', locs)) : SameOpen y W T' T := by
  obtain ⟨T'', locs'', h1, h2⟩ := bfs_spec hy hs hT (fuel := fuel) (by
    have := Nat.mul_le_mul_right y.M (openCount_le y.g T)
    omega)
  rw [hrun] at h1
  obtain ⟨rfl, rfl⟩ := Prod.mk.inj (Outcome.ok.inj h1)
  intro x hx hm
  cases hTx : T' x with
  | true => exact (h2.sub x hTx).symm
  | false =>
    cases hTx0 : T x with
    | false => rfl
    | true =>
      exfalso
      have hmem := h2.all x hTx0 hTx hm
      rcases h2.grown with hg | ⟨-, he⟩
      · have := grown_side hin hg (fun l hl => ⟨(h2.locs_ok l hl).2.1, (h2.locs_ok l hl).2.2.1⟩) x hmem
        rw [hx, hW] at this
        cases this
      · rw [he] at hmem; cases hmem

theorem scan_same (hag : Agree y z nb W) (hy : y.Ok) (hz : z.Ok) {f1 f2 : Nat}
    (hf1 : 1 + y.g.drifts * y.g.chans * y.M ≤ f1) (hf2 : 1 + z.g.drifts * z.g.chans * z.M ≤ f2) :
    ∀ n c T U cs ds cs' ds', SameOpen y W T U →
      cs.filter (fun A => W A.1) = ds.filter (fun A => W A.1) →
      y.scan f1 n c T cs = .ok cs' → z.scan f2 n c U ds = .ok ds' →
      cs'.filter (fun A => W A.1) = ds'.filter (fun A => W A.1) := by
  intro n
  induction n with
  | zero =>
    intro c T U cs ds cs' ds' _ hcs h1 h2
    simp only [Sys.scan, Outcome.ok.injEq] at h1 h2
    rw [← h1, ← h2]; exact hcs
  | succ n ih =>
    intro c T U cs ds cs' ds' ho hcs h1 h2
    have hnext : y.g.next c = z.g.next c := by rw [hag.grid]
    by_cases hg : y.g.has c
    · have hg' : z.g.has c := by rw [← hag.grid]; exact hg
      -- what the two scans do at this cell
      have s1 : (∃ T' l, T c = true ∧ y.seedOk c = true ∧ y.bfs f1 T [c] [] = .ok (T', l) ∧
            y.scan f1 n (y.g.next c) T' (cs ++ [(c, l)]) = .ok cs') ∨
          ((T c && y.seedOk c) = false ∧ y.scan f1 n (y.g.next c) T cs = .ok cs') := by
        cases hb : (T c && y.seedOk c) with
        | false => right; simp only [Sys.scan, if_pos hg, hb] at h1; exact ⟨rfl, by simpa using h1⟩
        | true =>
          left
          simp only [Sys.scan, if_pos hg, hb, if_true] at h1
          rw [Bool.and_eq_true] at hb
          cases hr : y.bfs f1 T [c] [] with
          | ok r => rw [hr] at h1; exact ⟨r.1, r.2, hb.1, hb.2, rfl, h1⟩
          | throws e => rw [hr] at h1; simp at h1
          | ub => rw [hr] at h1; simp at h1
      have s2 : (∃ U' l, U c = true ∧ z.seedOk c = true ∧ z.bfs f2 U [c] [] = .ok (U', l) ∧
            z.scan f2 n (z.g.next c) U' (ds ++ [(c, l)]) = .ok ds') ∨
          ((U c && z.seedOk c) = false ∧ z.scan f2 n (z.g.next c) U ds = .ok ds') := by
        cases hb : (U c && z.seedOk c) with
        | false => right; simp only [Sys.scan, if_pos hg', hb] at h2; exact ⟨rfl, by simpa using h2⟩
        | true =>
          left
          simp only [Sys.scan, if_pos hg', hb, if_true] at h2
          rw [Bool.and_eq_true] at hb
          cases hr : z.bfs f2 U [c] [] with
          | ok r => rw [hr] at h2; exact ⟨r.1, r.2, hb.1, hb.2, rfl, h2⟩
          | throws e => rw [hr] at h2; simp at h2
          | ub => rw [hr] at h2; simp at h2
      cases hW : W c with
      | true =>
        have hseed := hag.seed c hW
        rcases s1 with ⟨T', l, a1, a2, a3, a4⟩ | ⟨a1, a2⟩
        · have hm := hag.starts.1 c a2
          rcases s2 with ⟨U', m, b1, b2, b3, b4⟩ | ⟨b1, b2⟩
          · have hq : SameQueue y z W [c] [c] := by
              have hm' : z.member c = true := hag.starts.2 c b2
              refine ⟨fun x hx _ => ?_, fun x hx _ => ?_, ?_⟩
              · rw [List.mem_singleton.1 hx]; exact hW
              · rw [List.mem_singleton.1 hx]; exact hW
              · simp [hm, hm']
            obtain ⟨rfl, ho'⟩ := bfs_same hag _ _ _ _ _ _ _ _ _ _ _ _ (Nat.le_refl _) ho hq a3 b3
            rw [← hnext] at b4
            refine ih _ _ _ _ _ _ _ ho' ?_ a4 b4
            rw [List.filter_append, List.filter_append, hcs]
          · exfalso
            rw [← ho c hW hm, a1, ← hseed, a2] at b1
            cases b1
        · rcases s2 with ⟨U', m, b1, b2, b3, b4⟩ | ⟨b1, b2⟩
          · exfalso
            have hm : y.member c = true := by rw [hag.member c hW]; exact hag.starts.2 c b2
            rw [ho c hW hm, b1, hseed, b2] at a1
            cases a1
          · rw [← hnext] at b2
            exact ih _ _ _ _ _ _ _ ho hcs a2 b2
      | false =>
        have t1 : ∃ T1 cs1, SameOpen y W T1 T ∧
            cs1.filter (fun A => W A.1) = cs.filter (fun A => W A.1) ∧
            y.scan f1 n (y.g.next c) T1 cs1 = .ok cs' := by
          rcases s1 with ⟨T', l, a1, a2, a3, a4⟩ | ⟨a1, a2⟩
          · refine ⟨T', _, fill_outside hy (fun c x h => hag.insideY c x ((hag.relY c x).1 h)) hg a1 hf1 hW
              a3, ?_, a4⟩
            simp [List.filter_append, hW]
          · exact ⟨T, cs, fun _ _ _ => rfl, rfl, a2⟩
        have t2 : ∃ U1 ds1, SameOpen z W U1 U ∧
            ds1.filter (fun A => W A.1) = ds.filter (fun A => W A.1) ∧
            z.scan f2 n (z.g.next c) U1 ds1 = .ok ds' := by
          rcases s2 with ⟨U', l, a1, a2, a3, a4⟩ | ⟨a1, a2⟩
          · refine ⟨U', _, fill_outside hz (fun c x h => hag.insideZ c x ((hag.relZ c x).1 h)) hg' a1 hf2 hW
              a3, ?_, a4⟩
            simp [List.filter_append, hW]
          · exact ⟨U, ds, fun _ _ _ => rfl, rfl, a2⟩
        obtain ⟨T1, cs1, u1, u2, u3⟩ := t1
        obtain ⟨U1, ds1, v1, v2, v3⟩ := t2
        rw [← hnext] at v3
        refine ih _ _ _ _ _ _ _ (fun x hx hm => ?_) (by rw [u2, v2, hcs]) u3 v3
        rw [u1 x hx hm, ho x hx hm]
        exact (v1 x hx (by rw [← hag.member x hx]; exact hm)).symm
    · simp [Sys.scan, hg] at h1

/-! ## The threshold search -/

section
variable {F : Type} [Sub F] [Div F] [LT F] [DecidableLT F] [OfNat F 0] [OfNat F 2]

/-- Two searches with the same settings that agree on a range of channels, next to which, for as many
channels as the neighbour distance, no cell is above half the threshold. -/
structure SameRange (s u : Search F) (a b : Int) : Prop where
  grid : s.grid = u.grid
  floor : s.floor = u.floor
  noise : s.noise = u.noise
  thr : s.thr = u.thr
  dist : s.dist = u.dist
  val : ∀ c, s.grid.has c → a ≤ c.2 → c.2 < b → s.val c = u.val c
  rfi : ∀ c, s.grid.has c → a ≤ c.2 → c.2 < b → s.rfi c = u.rfi c
  quietS : ∀ c, s.grid.has c → (a - s.dist ≤ c.2 ∧ c.2 < a ∨ b ≤ c.2 ∧ c.2 < b + s.dist) →
    ¬ s.thr / 2 < s.snr c
  quietU : ∀ c, s.grid.has c → (a - s.dist ≤ c.2 ∧ c.2 < a ∨ b ≤ c.2 ∧ c.2 < b + s.dist) →
    ¬ u.thr / 2 < u.snr c

def inRange (g : Grid) (a b : Int) (c : Coord) : Bool := decide (g.has c ∧ a ≤ c.2 ∧ c.2 < b)

theorem nb_near {d : Int} {c x : Coord} (h : x ∈ (l1Offsets d).map (shift c)) :
    c.2 - d ≤ x.2 ∧ x.2 ≤ c.2 + d := by
  obtain ⟨o, ho, rfl⟩ := List.mem_map.1 h
  have := mem_l1Offsets.1 ho
  simp only [shift]
  omega

theorem side {s : Search F} {a b : Int}
    (hq : ∀ c, s.grid.has c → (a - s.dist ≤ c.2 ∧ c.2 < a ∨ b ≤ c.2 ∧ c.2 < b + s.dist) →
      ¬ s.thr / 2 < s.snr c) {c x : Coord} (hx : x ∈ (l1Offsets s.dist).map (shift c))
    (hc : s.grid.has c) (hx' : s.grid.has x) (hmc : s.thr / 2 < s.snr c) (hmx : s.thr / 2 < s.snr x) :
    inRange s.grid a b c = inRange s.grid a b x := by
  have h1 := nb_near hx
  have h2 : ¬ (a - s.dist ≤ c.2 ∧ c.2 < a ∨ b ≤ c.2 ∧ c.2 < b + s.dist) := fun h => hq c hc h hmc
  have h3 : ¬ (a - s.dist ≤ x.2 ∧ x.2 < a ∨ b ≤ x.2 ∧ x.2 < b + s.dist) := fun h => hq x hx' h hmx
  obtain ⟨o, ho, rfl⟩ := List.mem_map.1 hx
  have h4 := mem_l1Offsets.1 ho
  unfold inRange
  simp only [hc, hx', true_and, decide_eq_decide]
  have h5 := abs_nonneg o.2
  simp only [shift] at h1 h3 ⊢
  omega

theorem SameRange.agree {s u : Search F} {a b : Int} (h : SameRange s u a b)
    (hhalf : ∀ v : F, s.thr < v → s.thr / 2 < v) :
    Agree (threshSys s) (threshSys u) (fun c => (l1Offsets s.dist).map (shift c))
      (inRange s.grid a b) := by
  have hsnr : ∀ c, inRange s.grid a b c = true → s.snr c = u.snr c := by
    intro c hc
    simp only [inRange, decide_eq_true_eq] at hc
    unfold Search.snr
    rw [h.val c hc.1 hc.2.1 hc.2.2, h.floor, h.noise]
  refine ⟨h.grid, fun c hc => ?_, fun c hc => ?_, ⟨fun c hc => ?_, fun c hc => ?_⟩, fun T c => rfl,
    fun T c => ?_, fun c x => Iff.rfl, fun c x => ?_, fun c x hx g1 g2 m1 m2 => ?_,
    fun c x hx g1 g2 m1 m2 => ?_⟩
  · show decide (s.thr / 2 < s.snr c) = decide (u.thr / 2 < u.snr c)
    rw [hsnr c hc, h.thr]
  · show decide (s.thr < s.snr c) = decide (u.thr < u.snr c)
    rw [hsnr c hc, h.thr]
  · simp only [threshSys, decide_eq_true_eq] at hc ⊢
    exact hhalf _ hc
  · simp only [threshSys, decide_eq_true_eq] at hc ⊢
    rw [← h.thr] at hc ⊢
    exact hhalf _ hc
  · show ((l1Offsets u.dist).map (shift c)).filter _ = _
    rw [← h.dist]; rfl
  · show x ∈ (l1Offsets u.dist).map (shift c) ↔ _
    rw [← h.dist]
  · simp only [threshSys, decide_eq_true_eq] at m1 m2
    exact side h.quietS hx g1 g2 m1 m2
  · simp only [threshSys, decide_eq_true_eq] at m1 m2
    rw [h.grid]
    rw [h.dist] at hx
    refine side (s := u) (fun c hc => ?_) hx g1 g2 m1 m2
    have := h.quietU c (by rw [h.grid]; exact hc)
    rw [h.dist] at this
    exact this

theorem report_same {s u : Search F} {a b : Int} (h : SameRange s u a b) (fltMin : F)
    {A : Coord × List Coord} (h1 : inRange s.grid a b A.1 = true)
    (h2 : ∀ l ∈ A.2, inRange s.grid a b l = true) : report s fltMin A = report u fltMin A := by
  unfold report
  congr 1
  refine List.foldl_ext _ _ _ fun p c hc => ?_
  have hc' := h2 c hc
  simp only [inRange, decide_eq_true_eq] at hc' h1
  have e : s.snr c = u.snr c := by
    unfold Search.snr
    rw [h.val c hc'.1 hc'.2.1 hc'.2.2, h.floor, h.noise]
  unfold Search.add Search.track
  rw [e, h.val c hc'.1 hc'.2.1 hc'.2.2, h.noise, h.rfi A.1 h1.1 h1.2.1 h1.2.2]

/-- The clusters found in the range are the same, with all their fields and in the same order. -/
theorem findThresh_local {s u : Search F} {a b : Int} (h : SameRange s u a b) (fltMin : F)
    (hhalf : ∀ v : F, s.thr < v → s.thr / 2 < v) (hmin : ∀ v : F, s.thr < v → fltMin < v) :
    ∃ hs hu, findThresh s fltMin = .ok hs ∧ findThresh u fltMin = .ok hu ∧
      hs.filter (fun p => decide (a ≤ p.indexMax.2 ∧ p.indexMax.2 < b)) =
        hu.filter (fun p => decide (a ≤ p.indexMax.2 ∧ p.indexMax.2 < b)) := by
  have hag := h.agree hhalf
  obtain ⟨cs, c1, c2⟩ := scan_spec (threshSys_ok s) (unv fun _ => 0)
    (fuel := 1 + s.grid.drifts * s.grid.chans * (l1Offsets s.dist).length) (Nat.le_refl _)
  obtain ⟨ds, d1, d2⟩ := scan_spec (threshSys_ok u) (unv fun _ => 0)
    (fuel := 1 + u.grid.drifts * u.grid.chans * (l1Offsets u.dist).length) (Nat.le_refl _)
  have hg : (threshSys u).g.drifts * (threshSys u).g.chans =
      (threshSys s).g.drifts * (threshSys s).g.chans := by
    rw [threshSys_g, threshSys_g, h.grid]
  have d1' := d1
  rw [hg] at d1'
  have hsame := scan_same hag (threshSys_ok s) (threshSys_ok u) (Nat.le_refl _) (Nat.le_refl _) _ _ _ _
    [] [] cs ds (fun _ _ _ => rfl) rfl c1 d1'
  -- where the peak of a cluster is
  have peak : ∀ (v : Search F) (vs : List (Coord × List Coord)), v.grid = s.grid → v.thr = s.thr →
      (∀ c x, (threshSys v).N c x → v.grid.has c → v.grid.has x → (threshSys v).member c = true →
        (threshSys v).member x = true → inRange s.grid a b c = inRange s.grid a b x) →
      Found (threshSys v) (unv fun _ => 0) vs → ∀ A ∈ vs,
      (decide (a ≤ (report v fltMin A).indexMax.2 ∧ (report v fltMin A).indexMax.2 < b) =
        inRange s.grid a b A.1) ∧ ∀ l ∈ A.2, inRange s.grid a b l = inRange s.grid a b A.1 := by
    intro v vs e1 e2 hin hf A hA
    obtain ⟨_, _, a3, _, a5, a6⟩ := hf.comp_ok A hA
    have ht : v.thr < v.snr A.1 := by simpa [threshSys] using a3
    rcases a5 with hgr | hgr
    · obtain ⟨L, hL⟩ := hgr.head
      have hp := peak_first (s := v) (hmin _ (by rw [← e2]; exact ht)) L
      rw [← hL] at hp
      have hside := grown_side (W := inRange s.grid a b) hin hgr
        (fun l hl => ⟨(a6 l hl).2.1, (a6 l hl).2.2⟩)
      refine ⟨?_, hside⟩
      have hm := hp.mem
      have hh : s.grid.has (report v fltMin A).indexMax := by
        rw [← e1]; exact (a6 _ hm).2.2
      rw [← hside _ hm]
      show decide (a ≤ (report v fltMin A).indexMax.2 ∧ (report v fltMin A).indexMax.2 < b) =
        inRange s.grid a b (report v fltMin A).indexMax
      unfold inRange
      simp only [hh, true_and]
    · exact absurd hgr.1 (by
        have := hhalf _ (by rw [← e2]; exact ht)
        rw [← e2] at this
        simpa [threshSys] using this)
  have pS := peak s cs rfl rfl (fun c x => hag.insideY c x) c2
  have pU := peak u ds h.grid.symm h.thr.symm
    (fun c x hN => hag.insideZ c x ((hag.relZ c x).1 hN)) d2
  refine ⟨_, _, threshScan_eq _ _ _ [] _ c1, threshScan_eq _ _ _ [] _ d1, ?_⟩
  rw [List.filter_map, List.filter_map]
  have f1 : cs.filter ((fun p : Protohit F => decide (a ≤ p.indexMax.2 ∧ p.indexMax.2 < b)) ∘
      report s fltMin) = cs.filter (fun A => inRange s.grid a b A.1) :=
    List.filter_congr fun A hA => (pS A hA).1
  have f2 : ds.filter ((fun p : Protohit F => decide (a ≤ p.indexMax.2 ∧ p.indexMax.2 < b)) ∘
      report u fltMin) = ds.filter (fun A => inRange s.grid a b A.1) :=
    List.filter_congr fun A hA => (pU A hA).1
  rw [f1, f2, ← hsame]
  refine List.map_congr_left fun A hA => ?_
  obtain ⟨hA, hW⟩ := List.mem_filter.1 hA
  refine report_same h fltMin hW fun l hl => ?_
  rw [(pS A hA).2 l hl]; exact hW

/-- A cluster does not reach across channels without a cell above half the threshold, if there are as
many of them as the neighbour distance. -/
theorem cluster_split (s : Search F) (fltMin : F) (hhalf : ∀ v : F, s.thr < v → s.thr / 2 < v)
    {lo hi : Int} (hlo : lo ≤ hi) (hd : s.dist ≤ hi - lo)
    (hq : ∀ c, s.grid.has c → lo ≤ c.2 → c.2 < hi → ¬ s.thr / 2 < s.snr c)
    {cs : List (Protohit F)} (h : findThresh s fltMin = .ok cs) {c : Protohit F} (hc : c ∈ cs) :
    (∀ l ∈ c.locations, l.2 < lo) ∨ ∀ l ∈ c.locations, hi ≤ l.2 := by
  obtain ⟨vs, c1, c2⟩ := scan_spec (threshSys_ok s) (unv fun _ => 0)
    (fuel := 1 + s.grid.drifts * s.grid.chans * (l1Offsets s.dist).length) (Nat.le_refl _)
  have e : findThresh s fltMin = .ok (vs.map (report s fltMin)) := threshScan_eq _ _ _ [] _ c1
  have h' : Outcome.ok (vs.map (report s fltMin)) = Outcome.ok cs := by rw [← h]; exact e.symm
  obtain rfl := Outcome.ok.inj h'
  obtain ⟨A, hA, rfl⟩ := List.mem_map.1 hc
  obtain ⟨_, _, a3, _, a5, a6⟩ := c2.comp_ok A hA
  rw [report_locations]
  have ht : s.thr < s.snr A.1 := by simpa [threshSys] using a3
  have hm : ∀ x, s.grid.has x → (threshSys s).member x = true → x.2 < lo ∨ hi ≤ x.2 := by
    intro x hx hmx
    by_contra hno
    push Not at hno
    exact hq x hx hno.1 hno.2 (by simpa [threshSys] using hmx)
  rcases a5 with hgr | hgr
  · have hside := grown_side (W := fun x : Coord => decide (x.2 < lo)) (fun c x hN hgc hgx hmc hmx => by
      have h1 : c.2 - s.dist ≤ x.2 ∧ x.2 ≤ c.2 + s.dist := nb_near (by simpa [threshSys] using hN)
      have h2 := hm c hgc hmc
      have h3 := hm x hgx hmx
      rw [decide_eq_decide]
      omega) hgr (fun l hl => ⟨(a6 l hl).2.1, (a6 l hl).2.2⟩)
    by_cases hA1 : A.1.2 < lo
    · refine Or.inl fun l hl => ?_
      have := hside l hl
      simpa [hA1] using this
    · refine Or.inr fun l hl => ?_
      have h1 := hside l hl
      have h2 := hm l (a6 l hl).2.2 (a6 l hl).2.1
      have h3 : ¬ l.2 < lo := by simpa [hA1] using h1
      omega
  · exact absurd hgr.1 (by simpa [threshSys] using hhalf _ ht)

end

end Bliss.Comp
