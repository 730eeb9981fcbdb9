import Verif.Event.Lemmas
import Verif.Hit.Props
import Mathlib.Data.Rat.Defs
import Mathlib.Algebra.Order.Ring.Rat
import Mathlib.Algebra.Order.Field.Rat
import Mathlib.Algebra.BigOperators.Group.List.Basic
import Mathlib.Tactic.Ring
import Mathlib.Tactic.Linarith

/-!
# Properties of event search (C22 – C27, C67)
-/

namespace Bliss.Event

open Bliss.Hit (Hit FOrd)
open Bliss.File (Event)

variable {F D : Type}

/-- The on scans' hits, each with the number of its scan. -/
def onHits (on : List (ScanHits F D)) : List (Nat × Hit F D) :=
  tagged 0 (on.map ScanHits.hits)

theorem mem_onHits {on : List (ScanHits F D)} {j : Nat} {h : Hit F D} :
    (j, h) ∈ onHits on ↔ ∃ sc, on[j]? = some sc ∧ h ∈ sc.hits := by
  unfold onHits
  rw [mem_tagged]
  constructor
  · rintro ⟨i, hs, hi, rfl, hm⟩
    rw [List.getElem?_map, Option.map_eq_some_iff] at hi
    obtain ⟨sc, hsc, rfl⟩ := hi
    exact ⟨sc, by simpa using hsc, hm⟩
  · rintro ⟨sc, hsc, hm⟩
    exact ⟨j, sc.hits, by simp [hsc], by simp, hm⟩

/-! ## The cache of distances -/

/-- The values `hit_distance` may return for `a`, `b`. -/
def Either (o : EvOps F D) (a b : Hit F D) (v : F) : Prop :=
  v = distanceFunc o a b ∨ v = distanceFunc o b a

/-- Equality of the fields decides the distance. -/
def Congr (o : EvOps F D) (oF : FOrd F) (oD : FOrd D) : Prop :=
  ∀ a a' b b' : Hit F D, Hit.beq oF oD a a' = true → Hit.beq oF oD b b' = true →
    distanceFunc o a b = distanceFunc o a' b'

/-- Two keys that the comparator does not order are the same pair, possibly swapped. -/
theorem comp_equiv {oF : FOrd F} {oD : FOrd D} (hF : oF.Lawful) (hD : oD.Lawful)
    (tF : oF.Total) (tD : oD.Total) (p q : Pair F D)
    (h1 : comp oF oD p q = false) (h2 : comp oF oD q p = false) :
    SamePair oF oD p q ∨ SamePair oF oD p (q.2, q.1) := by
  have hbeq : ∀ a b : Hit F D, Hit.blt oF oD a b = false → Hit.blt oF oD b a = false →
      Hit.beq oF oD a b = true := fun a b ha hb =>
    (((Hit.C20_hit_order hF hD).2.2.2 tF tD a b).2).2 ⟨ha, hb⟩
  have hsymm : ∀ a b : Hit F D, Hit.beq oF oD a b = true → Hit.beq oF oD b a = true := by
    intro a b h
    have := (Hit.C20_hit_order (F := F) (D := D) hF hD).2.2.1 a b h
    exact hbeq b a this.2 this.1
  by_contra hno
  have hns : ¬ SamePair oF oD p q := fun h => hno (Or.inl h)
  have hnw : ¬ SamePair oF oD p (q.2, q.1) := fun h => hno (Or.inr h)
  unfold comp at h1 h2
  have c1 : ¬ ((Hit.beq oF oD p.1 q.1 && Hit.beq oF oD p.2 q.2) = true) := by
    simpa [SamePair] using hns
  have c2 : ¬ ((Hit.beq oF oD p.1 q.2 && Hit.beq oF oD p.2 q.1) = true) := by
    simpa [SamePair] using hnw
  have c3 : ¬ ((Hit.beq oF oD q.1 p.1 && Hit.beq oF oD q.2 p.2) = true) := by
    intro h
    simp only [Bool.and_eq_true] at h
    exact hns ⟨hsymm _ _ h.1, hsymm _ _ h.2⟩
  have c4 : ¬ ((Hit.beq oF oD q.1 p.2 && Hit.beq oF oD q.2 p.1) = true) := by
    intro h
    simp only [Bool.and_eq_true] at h
    exact hnw ⟨hsymm _ _ h.2, hsymm _ _ h.1⟩
  rw [if_neg c1, if_neg c2] at h1
  rw [if_neg c3, if_neg c4] at h2
  simp only [pairLt, Bool.or_eq_false_iff, Bool.and_eq_false_iff, Bool.not_eq_false'] at h1 h2
  have e1 : Hit.beq oF oD p.1 q.1 = true := hbeq _ _ h1.1 h2.1
  have e2 : Hit.beq oF oD p.2 q.2 = true := by
    refine hbeq _ _ ?_ ?_
    · rcases h1.2 with h | h
      · rw [h2.1] at h; cases h
      · exact h
    · rcases h2.2 with h | h
      · rw [h1.1] at h; cases h
      · exact h
  exact hns ⟨e1, e2⟩

/-- The state of the cache: stored values are distances of their keys. -/
def CacheInv (o : EvOps F D) {m : OrdMap (Pair F D) F} {cmp : Pair F D → Pair F D → Bool}
    (hm : m.Sound cmp) (c : m.M) : Prop :=
  ∀ k v, hm.Stores c k v → v = distanceFunc o k.1 k.2

theorem cachedDistance_answers (o : EvOps F D) {oF : FOrd F} {oD : FOrd D} (hF : oF.Lawful)
    (hD : oD.Lawful) (tF : oF.Total) (tD : oD.Total) (hcong : Congr o oF oD)
    (m : OrdMap (Pair F D) F) (hm : m.Sound (comp oF oD)) :
    Answers (cachedDistance o m) (CacheInv o hm) (Either o) := by
  constructor
  · intro c a b hc
    unfold cachedDistance
    cases hf : m.find c (a, b) with
    | none => exact Or.inl rfl
    | some d =>
      obtain ⟨k, hs, h1, h2⟩ := hm.find c (a, b) d hf
      have hd := hc k d hs
      rcases comp_equiv hF hD tF tD (a, b) k h1 h2 with h | h
      · left; show d = _
        rw [hd]; exact (hcong _ _ _ _ h.1 h.2).symm
      · right; show d = _
        rw [hd]; exact (hcong _ _ _ _ h.2 h.1).symm
  · intro c a b hc
    unfold cachedDistance
    cases hf : m.find c (a, b) with
    | none =>
      intro k v hs
      rcases hm.insert c (a, b) _ k v hf hs with h | ⟨rfl, rfl⟩
      · exact hc k v h
      · rfl
    | some d => exact hc

theorem cacheInv_empty (o : EvOps F D) {m : OrdMap (Pair F D) F} {cmp : Pair F D → Pair F D → Bool}
    (hm : m.Sound cmp) : CacheInv o hm m.empty := fun k v h => absurd h (hm.empty k v)

/-! ## Exact arithmetic, for examples and for statements about means -/

/-- Rational arithmetic in place of `float` and `double`, with the constants of the source. -/
def ideal : EvOps ℚ ℚ where
  add := (· + ·)
  sub := (· - ·)
  mul := (· * ·)
  div := (· / ·)
  abs := fun x => if x < 0 then -x else x
  min := fun a b => if b < a then b else a
  max := fun a b => if a < b then b else a
  toD := id
  toF := id
  addF := (· + ·)
  subF := (· - ·)
  mulF := (· * ·)
  divF := (· / ·)
  absF := fun x => if x < 0 then -x else x
  ltF := fun a b => decide (a < b)
  natF := fun n => (n : ℚ)
  natD := fun n => (n : ℚ)
  zeroF := 0
  zeroD := 0
  fltMax := (2 ^ 24 - 1) * 2 ^ 104
  fifty := 50
  wFreq := 1 / 100
  wDrift := 10
  wSnr := 0
  eps := 1 / 100000000
  secPerDay := 86400
  million := 1000000
  two := 2

theorem ideal_lt : LtLaws ideal where
  irrefl := by intro a; simp [ideal]
  trans := by
    intro a b d
    simp only [ideal, decide_eq_true_eq]
    exact lt_trans
  big := by decide +kernel

theorem ideal_notLt : NotLtTrans ideal := by
  intro a b e
  simp only [ideal, decide_eq_false_iff_not, not_lt]
  exact le_trans

/-- Comparison of rationals. -/
def ratOrd : FOrd ℚ := ⟨fun a b => decide (a = b), fun a b => decide (a < b)⟩

theorem ratOrd_lawful : ratOrd.Lawful := by
  constructor <;> simp only [ratOrd, decide_eq_true_eq, decide_eq_false_iff_not]
  · intro a b h; exact h.symm
  · intro a b c h1 h2; exact h1.trans h2
  · intro a; exact lt_irrefl a
  · intro a b c; exact lt_trans
  · intro a b c h1 h2; exact h2 ▸ h1
  · intro a b c h1 h2; exact h1 ▸ h2
  · intro a b h; exact ne_of_lt h

theorem ratOrd_total : ratOrd.Total := by
  intro a b
  simp only [ratOrd, decide_eq_true_eq]
  rcases lt_trichotomy a b with h | h | h
  · exact Or.inr (Or.inl h)
  · exact Or.inl h
  · exact Or.inr (Or.inr h)

theorem ideal_congr : Congr ideal ratOrd ratOrd := by
  intro a a' b b' ha hb
  simp only [Hit.beq, ratOrd, Bool.and_eq_true, decide_eq_true_eq] at ha hb
  obtain ⟨⟨⟨⟨⟨⟨⟨⟨⟨⟨⟨-, a1⟩, a2⟩, a3⟩, -⟩, a4⟩, -⟩, -⟩, a5⟩, -⟩, -⟩, -⟩ := ha
  obtain ⟨⟨⟨⟨⟨⟨⟨⟨⟨⟨⟨-, b1⟩, b2⟩, b3⟩, -⟩, b4⟩, -⟩, -⟩, b5⟩, -⟩, -⟩, -⟩ := hb
  simp only [distanceFunc, a1, a2, a3, a4, a5, b1, b2, b3, b4, b5]

deriving instance DecidableEq for Bliss.Hit.Hit
deriving instance DecidableEq for Bliss.File.Event

/-- A hit at `mhz` MHz seen from `start` for `dur` seconds, drifting by `drift` Hz/s. -/
def exHit (mhz start dur drift snr : ℚ) : Hit ℚ ℚ :=
  { startFreqIndex := 0, startFreqMHz := mhz, startTime := start, duration := dur
    rateIndex := 0, driftRate := drift, power := 1, timeSpan := 16, snr := snr, bandwidth := 3
    binwidth := 1, rfi := [], coarseChannel := 0 }

/-- Two on scans one day apart, with one hit each 100 Hz apart, and a far OFF hit. -/
def exCadence : List (List (ScanHits ℚ ℚ)) :=
  [[⟨1, 300, [exHit 8400 86400 300 0 20]⟩,
    ⟨2, 300, [exHit (8400 + 1 / 10000) 172800 300 0 30]⟩],
   [⟨3 / 2, 300, [exHit 9000 129600 300 0 10]⟩]]

/-- The standard container in its simplest form, with the comparator of the source. -/
abbrev exMap : OrdMap (Pair ℚ ℚ) ℚ := listMap (comp ratOrd ratOrd)

/-- The search finds the event of the example. -/
theorem exCadence_found :
    ∃ e, eventSearch ideal exMap exCadence = .ok [e] ∧ e.hits.length = 2 ∧ e.averageSnr = 25 := by
  refine ⟨mkEvent ideal ⟨1, 300, [exHit 8400 86400 300 0 20]⟩ (exHit 8400 86400 300 0 20)
    [exHit 8400 86400 300 0 20, exHit (8400 + 1 / 10000) 172800 300 0 30], ?_, rfl, ?_⟩
  · decide +kernel
  · decide +kernel

/-! ## C22, C23: what events are made of -/

theorem eventSearch_uses (o : EvOps F D) (m : OrdMap (Pair F D) F)
    (hbig : o.ltF o.fltMax o.fifty = false) (on : List (ScanHits F D))
    (offs : List (List (ScanHits F D))) :
    ∃ (es : List (Event F D)) (uses : List (List (Nat × Hit F D))),
      eventSearch o m (on :: offs) = .ok es ∧ Uses es uses ∧
      List.Subperm uses.flatten (onHits on) := by
  unfold eventSearch searchWith onHits
  exact fromScans_uses (dist := cachedDistance o m) hbig _ 0 on (on.map ScanHits.hits) m.empty

/-- **C22.** For every cadence, every arithmetic (including rounding and NaN) and every behaviour of
the distance cache: each event that is returned has at least two hits, and its hits come from scans
of the first target with strictly increasing scan numbers, so all from different scans and in scan
order. The only law used is that the largest `float` is not below 50. -/
theorem C22_events_use_distinct_scans (o : EvOps F D) (m : OrdMap (Pair F D) F)
    (hbig : o.ltF o.fltMax o.fifty = false) (on : List (ScanHits F D))
    (offs : List (List (ScanHits F D))) (es : List (Event F D))
    (h : eventSearch o m (on :: offs) = .ok es) :
    ∀ e ∈ es, 2 ≤ e.hits.length ∧ ∃ scans : List Nat, scans.length = e.hits.length ∧
      scans.Pairwise (· < ·) ∧
      ∀ (i k : Nat) (x : Hit F D), e.hits[i]? = some x → scans[i]? = some k →
        ∃ sc, on[k]? = some sc ∧ x ∈ sc.hits := by
  obtain ⟨es', uses, h', ⟨hu1, hu2⟩, hsub⟩ := eventSearch_uses o m hbig on offs
  rw [h] at h'
  simp only [Outcome.ok.injEq] at h'
  subst h'
  intro e he
  have hmem : e.hits ∈ uses.map (List.map Prod.snd) := hu1 ▸ List.mem_map_of_mem he
  obtain ⟨u, hu, hue⟩ := List.mem_map.mp hmem
  obtain ⟨h2, hpw⟩ := hu2 u hu
  refine ⟨by rw [← hue]; simpa using h2, u.map Prod.fst, by rw [← hue]; simp, hpw, ?_⟩
  intro i k x hx hk
  rw [← hue, List.getElem?_map, Option.map_eq_some_iff] at hx
  rw [List.getElem?_map, Option.map_eq_some_iff] at hk
  obtain ⟨y, hy, rfl⟩ := hx
  obtain ⟨z, hz, rfl⟩ := hk
  rw [hy] at hz
  simp only [Option.some.injEq] at hz
  subst hz
  have hin : y ∈ uses.flatten := List.mem_flatten.2 ⟨u, hu, List.mem_of_getElem? hy⟩
  exact mem_onHits.1 (hsub.subset hin)

/-- **C23.** For every cadence, arithmetic and cache behaviour: the hits of all events together,
each with the number of its scan, are a sub-multiset of the hits of the on scans with their scan
numbers. So no hit of a scan is used more often than the scan contains it, and none is invented. -/
theorem C23_no_reuse_no_invention (o : EvOps F D) (m : OrdMap (Pair F D) F)
    (hbig : o.ltF o.fltMax o.fifty = false) (on : List (ScanHits F D))
    (offs : List (List (ScanHits F D))) (es : List (Event F D))
    (h : eventSearch o m (on :: offs) = .ok es) :
    ∃ uses : List (List (Nat × Hit F D)),
      es.map Event.hits = uses.map (List.map Prod.snd) ∧
      (∀ u ∈ uses, (u.map Prod.fst).Pairwise (· < ·)) ∧
      List.Subperm uses.flatten (onHits on) := by
  obtain ⟨es', uses, h', ⟨hu1, hu2⟩, hsub⟩ := eventSearch_uses o m hbig on offs
  rw [h] at h'
  simp only [Outcome.ok.injEq] at h'
  subst h'
  exact ⟨uses, hu1, fun u hu => (hu2 u hu).2, hsub⟩

/-- Membership form of C23: every hit of every event is a hit of an on scan. -/
theorem C23_hits_from_on_scans (o : EvOps F D) (m : OrdMap (Pair F D) F)
    (hbig : o.ltF o.fltMax o.fifty = false) (on : List (ScanHits F D))
    (offs : List (List (ScanHits F D))) (es : List (Event F D))
    (h : eventSearch o m (on :: offs) = .ok es) :
    ∀ e ∈ es, ∀ x ∈ e.hits, ∃ sc ∈ on, x ∈ sc.hits := by
  intro e he x hx
  obtain ⟨-, scans, hlen, -, hs⟩ := C22_events_use_distinct_scans o m hbig on offs es h e he
  obtain ⟨i, hi, rfl⟩ := List.getElem_of_mem hx
  obtain ⟨sc, h1, h2⟩ := hs i (scans[i]'(by omega)) _ (List.getElem?_eq_getElem hi)
    (List.getElem?_eq_getElem (by omega))
  exact ⟨sc, List.mem_of_getElem? h1, h2⟩

/-- The hypotheses of C22 and C23 are met with a non-empty result. -/
example : ∃ es, eventSearch ideal exMap exCadence = .ok es ∧ es ≠ [] ∧
    ∀ e ∈ es, 2 ≤ e.hits.length := by
  obtain ⟨e, he, -⟩ := exCadence_found
  exact ⟨[e], he, by simp, fun e' h' =>
    (C22_events_use_distinct_scans ideal exMap ideal_lt.big _ _ _ he e' h').1⟩

/-! ## C24: distances within an event -/

/-- **C24 (part).** For a cadence without NaN: every hit of an event but the first lies, for one of
the two orders in which the distance can be taken, within 50 of an earlier hit of the event; and for
every hit of every OFF scan, the average of its distances to the hits of the event (each taken in
one of the two orders) is not below 50. The full property needs the distance to be symmetric, which
it is not (`C26_not_symmetric`). -/
theorem C24_distances_partial (o : EvOps F D) {oF : FOrd F} {oD : FOrd D} (hF : oF.Lawful)
    (hD : oD.Lawful) (tF : oF.Total) (tD : oD.Total) (hcong : Congr o oF oD)
    (m : OrdMap (Pair F D) F) (hm : m.Sound (comp oF oD)) (hl : LtLaws o)
    (on : List (ScanHits F D)) (offs : List (List (ScanHits F D))) (es : List (Event F D))
    (h : eventSearch o m (on :: offs) = .ok es) :
    ∀ e ∈ es,
      (∀ (i : Nat) (x : Hit F D), 0 < i → e.hits[i]? = some x →
        ∃ (j : Nat) (y : Hit F D) (v : F), j < i ∧ e.hits[j]? = some y ∧
          (v = distanceFunc o y x ∨ v = distanceFunc o x y) ∧ o.ltF v o.fifty = true) ∧
      (∀ t ∈ offs, ∀ sc ∈ t, ∀ off ∈ sc.hits, ∃ vs : List F,
        List.Forall₂ (fun x v => v = distanceFunc o off x ∨ v = distanceFunc o x off) e.hits vs ∧
        o.ltF (o.divF (vs.foldl o.addF o.zeroF) (o.natF e.hits.length)) o.fifty = false) := by
  have ha := cachedDistance_answers o hF hD tF tD hcong m hm
  have hsub : ∀ (i : Nat) (sc : ScanHits F D) (hs : List (Hit F D)), on[i]? = some sc →
      (on.map ScanHits.hits)[i]? = some hs → ∀ h ∈ hs, h ∈ sc.hits := by
    intro i sc hs h1 h2 x hx
    rw [List.getElem?_map, h1] at h2
    simp only [Option.map_some, Option.some.injEq] at h2
    exact h2 ▸ hx
  have hmain := fromScans_close hl ha (offs.flatten.flatMap ScanHits.hits) on
    (on.map ScanHits.hits) m.empty (cacheInv_empty o hm) (by simp) hsub h
  intro e he
  obtain ⟨hch, hclear, -⟩ := hmain e he
  refine ⟨hch, ?_⟩
  intro t ht sc hsc off hoff
  exact hclear off (List.mem_flatMap.2 ⟨sc, List.mem_flatten.2 ⟨t, ht, hsc⟩, hoff⟩)

/-- **C24 (part): the closest hit.** One step of building an event, with `ev` the hits so far and
`hits` the hits of the next scan that are still available. Either no hit of the scan is close to the
event and nothing changes, or the hit that is added is within 50 of a hit of the event, no available
hit of the scan is closer, and exactly that hit stops being available. -/
theorem C24_closest_partial (o : EvOps F D) {oF : FOrd F} {oD : FOrd D} (hF : oF.Lawful)
    (hD : oD.Lawful) (tF : oF.Total) (tD : oD.Total) (hcong : Congr o oF oD)
    (m : OrdMap (Pair F D) F) (hm : m.Sound (comp oF oD)) (hl : LtLaws o) (hnt : NotLtTrans o)
    (ev hits : List (Hit F D)) (c : m.M) (hc : CacheInv o hm c) :
    (∃ c', matchScan o (cachedDistance o m) ev hits c = .ok (ev, hits, c') ∧ CacheInv o hm c' ∧
      ∀ h ∈ hits, ∀ e ∈ ev, ∃ v, Either o e h v ∧ o.ltF v o.fifty = false) ∨
    (∃ i h c' e best, hits[i]? = some h ∧
      matchScan o (cachedDistance o m) ev hits c = .ok (ev ++ [h], hits.eraseIdx i, c') ∧
      CacheInv o hm c' ∧ e ∈ ev ∧ Either o e h best ∧ o.ltF best o.fifty = true ∧
      ∀ h' ∈ hits, ∀ e' ∈ ev, ∃ v, Either o e' h' v ∧ o.ltF v best = false) :=
  matchScan_closest hl hnt (cachedDistance_answers o hF hD tF tD hcong m hm) ev hits c hc

/-- The hypotheses of C24 are met by exact arithmetic on the example, which has an event and an OFF
hit. -/
example : ∃ es, eventSearch ideal exMap exCadence = .ok es ∧ es ≠ [] ∧
    ∀ e ∈ es, ∃ (j : Nat) (y x : Hit ℚ ℚ) (v : ℚ), j < 1 ∧ e.hits[j]? = some y ∧
      e.hits[1]? = some x ∧
      (v = distanceFunc ideal y x ∨ v = distanceFunc ideal x y) ∧ ideal.ltF v ideal.fifty = true := by
  obtain ⟨e, he, hlen, -⟩ := exCadence_found
  refine ⟨[e], he, by simp, ?_⟩
  intro e' h'
  have := (C24_distances_partial ideal ratOrd_lawful ratOrd_lawful ratOrd_total ratOrd_total
    ideal_congr exMap (listMap_sound _) ideal_lt _ _ _ he e' h').1
  simp only [List.mem_singleton] at h'
  subst h'
  obtain ⟨x, hx⟩ : ∃ x, e'.hits[1]? = some x :=
    ⟨_, List.getElem?_eq_getElem (by rw [hlen]; omega)⟩
  obtain ⟨j, y, v, hj, hy, hd, hv⟩ := this 1 x (by omega) hx
  exact ⟨j, y, x, v, hj, hy, hx, hd, hv⟩

/-! ## C25: the fields of an event -/

theorem foldl_add_rat {α : Type} (f : α → ℚ) (l : List α) (s : ℚ) :
    l.foldl (fun acc h => acc + f h) s = s + (l.map f).sum := by
  induction l generalizing s with
  | nil => simp
  | cons a l ih => simp only [List.foldl_cons, ih, List.map_cons, List.sum_cons]; ring

/-- Every event is what `mkEvent` makes of its hits, its first hit and the scan of that hit. -/
theorem eventSearch_mk (o : EvOps F D) (m : OrdMap (Pair F D) F) (hl : LtLaws o)
    (on : List (ScanHits F D)) (offs : List (List (ScanHits F D))) (es : List (Event F D))
    (h : eventSearch o m (on :: offs) = .ok es) :
    ∀ e ∈ es, ∃ sc ∈ on, ∃ hd tl, e.hits = hd :: tl ∧ hd ∈ sc.hits ∧ e = mkEvent o sc hd e.hits := by
  have ha : Answers (cachedDistance o m) (fun _ => True) (fun _ _ _ => True) :=
    ⟨fun _ _ _ _ => trivial, fun _ _ _ _ => trivial⟩
  have hsub : ∀ (i : Nat) (sc : ScanHits F D) (hs : List (Hit F D)), on[i]? = some sc →
      (on.map ScanHits.hits)[i]? = some hs → ∀ h ∈ hs, h ∈ sc.hits := by
    intro i sc hs h1 h2 x hx
    rw [List.getElem?_map, h1] at h2
    simp only [Option.map_some, Option.some.injEq] at h2
    exact h2 ▸ hx
  intro e he
  obtain ⟨-, -, sc, h1, hd, tl, h2, h3, h4⟩ :=
    fromScans_close hl ha (offs.flatten.flatMap ScanHits.hits) on
      (on.map ScanHits.hits) m.empty trivial (by simp) hsub h e he
  exact ⟨sc, h1, hd, tl, h2, h3, h4⟩

/-- **C25 (part).** In exact arithmetic the averages of an event are the arithmetic means over its
hits, for every cadence. The starting frequency is that of the first hit, and the time extent is the
extent of the scan that the first hit was found in: it does not cover the other hits
(`C25_extent_misses_hits`). -/
theorem C25_event_fields_partial (m : OrdMap (Pair ℚ ℚ) ℚ) (on : List (ScanHits ℚ ℚ))
    (offs : List (List (ScanHits ℚ ℚ))) (es : List (Event ℚ ℚ))
    (h : eventSearch ideal m (on :: offs) = .ok es) :
    ∀ e ∈ es,
      e.averagePower = (e.hits.map Hit.power).sum / (e.hits.length : ℚ) ∧
      e.averageSnr = (e.hits.map Hit.snr).sum / (e.hits.length : ℚ) ∧
      e.averageBandwidth = (e.hits.map Hit.bandwidth).sum / (e.hits.length : ℚ) ∧
      e.averageDrift = (e.hits.map Hit.driftRate).sum / (e.hits.length : ℚ) ∧
      ∃ sc ∈ on, ∃ hd tl, e.hits = hd :: tl ∧ hd ∈ sc.hits ∧
        e.startingFrequency = hd.startFreqMHz * 1000000 ∧
        e.startSeconds = sc.tstart * 86400 ∧ e.endSeconds = sc.tstart * 86400 + sc.duration := by
  intro e he
  obtain ⟨sc, hsc, hd, tl, h1, h2, h3⟩ := eventSearch_mk ideal m ideal_lt on offs es h e he
  have hp : e.averagePower = (mkEvent ideal sc hd e.hits).averagePower := congrArg _ h3
  have hs : e.averageSnr = (mkEvent ideal sc hd e.hits).averageSnr := congrArg _ h3
  have hb : e.averageBandwidth = (mkEvent ideal sc hd e.hits).averageBandwidth := congrArg _ h3
  have hdr : e.averageDrift = (mkEvent ideal sc hd e.hits).averageDrift := congrArg _ h3
  have hf : e.startingFrequency = (mkEvent ideal sc hd e.hits).startingFrequency := congrArg _ h3
  have hst : e.startSeconds = (mkEvent ideal sc hd e.hits).startSeconds := congrArg _ h3
  have hen : e.endSeconds = (mkEvent ideal sc hd e.hits).endSeconds := congrArg _ h3
  refine ⟨?_, ?_, ?_, ?_, sc, hsc, hd, tl, h1, h2, hf, hst, hen⟩
  · rw [hp]; simp only [mkEvent, ideal, id_eq, foldl_add_rat, zero_add]
  · rw [hs]; simp only [mkEvent, ideal, foldl_add_rat, zero_add]
  · rw [hb]; simp only [mkEvent, ideal, foldl_add_rat, zero_add]
  · rw [hdr]; simp only [mkEvent, ideal, foldl_add_rat, zero_add]

/-- In any arithmetic the time extent is that of the scan of the first hit. -/
theorem C25_extent_of_first_scan (o : EvOps F D) (m : OrdMap (Pair F D) F) (hl : LtLaws o)
    (on : List (ScanHits F D)) (offs : List (List (ScanHits F D))) (es : List (Event F D))
    (h : eventSearch o m (on :: offs) = .ok es) :
    ∀ e ∈ es, ∃ sc ∈ on, (∃ hd tl, e.hits = hd :: tl ∧ hd ∈ sc.hits) ∧
      e.startSeconds = o.mul sc.tstart (o.toD o.secPerDay) ∧
      e.endSeconds = o.add (o.mul sc.tstart (o.toD o.secPerDay)) sc.duration := by
  intro e he
  obtain ⟨sc, hsc, hd, tl, h1, h2, h3⟩ := eventSearch_mk o m hl on offs es h e he
  have hst : e.startSeconds = (mkEvent o sc hd e.hits).startSeconds := congrArg _ h3
  have hen : e.endSeconds = (mkEvent o sc hd e.hits).endSeconds := congrArg _ h3
  exact ⟨sc, hsc, ⟨hd, tl, h1, h2⟩, hst, hen⟩

/-- **C25 fails for the time extent.** The event of the example ends at 86700 s although one of its
hits starts at 172800 s. -/
theorem C25_extent_misses_hits :
    ∃ e, eventSearch ideal exMap exCadence = .ok [e] ∧
      ∃ x ∈ e.hits, e.endSeconds < x.startTime := by
  obtain ⟨e, he, hlen, -⟩ := exCadence_found
  have : e = mkEvent ideal ⟨1, 300, [exHit 8400 86400 300 0 20]⟩ (exHit 8400 86400 300 0 20)
    [exHit 8400 86400 300 0 20, exHit (8400 + 1 / 10000) 172800 300 0 30] := by
    have h2 : eventSearch ideal exMap exCadence = .ok [mkEvent ideal
      ⟨1, 300, [exHit 8400 86400 300 0 20]⟩ (exHit 8400 86400 300 0 20)
      [exHit 8400 86400 300 0 20, exHit (8400 + 1 / 10000) 172800 300 0 30]] := by decide +kernel
    rw [he] at h2
    simpa using h2
  subst this
  refine ⟨_, he, exHit (8400 + 1 / 10000) 172800 300 0 30, by simp [mkEvent], ?_⟩
  decide +kernel

/-! ## C26: the distance and its cache -/

/-- **C26 (part): symmetry.** For hits of equal duration the distance is symmetric, under the laws of
exact arithmetic named in the hypotheses (in `float` arithmetic the three-term sum of line 22 can
round differently for the two orders). -/
theorem C26_symmetric_partial (o : EvOps F D)
    (habs : ∀ x y, o.abs (o.sub x y) = o.abs (o.sub y x))
    (habsF : ∀ x y, o.absF (o.subF x y) = o.absF (o.subF y x))
    (hmin : ∀ x y, o.min x y = o.min y x) (hmax : ∀ x y, o.max x y = o.max y x)
    (hadd : ∀ x y z, o.add (o.add x y) z = o.add (o.add x z) y)
    (a b : Hit F D) (hdur : a.duration = b.duration) :
    distanceFunc o a b = distanceFunc o b a := by
  unfold distanceFunc
  simp only [hdur]
  rw [habs a.driftRate b.driftRate, hadd (o.toD o.eps) (o.mul a.driftRate a.driftRate),
    hmin a.startTime b.startTime, hmax (o.add a.startTime b.duration), habsF a.snr b.snr]
  rw [habs (o.add (o.mul a.startFreqMHz o.million) _)]

/-- Exact arithmetic meets these laws. -/
theorem ideal_symmetric (a b : Hit ℚ ℚ) (hdur : a.duration = b.duration) :
    distanceFunc ideal a b = distanceFunc ideal b a := by
  have habs : ∀ x y : ℚ, (if x - y < 0 then -(x - y) else x - y) =
      (if y - x < 0 then -(y - x) else y - x) := by
    intro x y
    rcases lt_trichotomy x y with h | h | h
    · rw [if_pos (by linarith), if_neg (by linarith)]; ring
    · subst h; simp
    · rw [if_neg (by linarith), if_pos (by linarith)]; ring
  refine C26_symmetric_partial ideal habs habs ?_ ?_ ?_ a b hdur
  · intro x y
    show (if y < x then y else x) = (if x < y then x else y)
    rcases lt_trichotomy x y with h | h | h
    · rw [if_neg (by linarith), if_pos h]
    · subst h; simp
    · rw [if_pos h, if_neg (by linarith)]
  · intro x y
    show (if x < y then y else x) = (if y < x then x else y)
    rcases lt_trichotomy x y with h | h | h
    · rw [if_pos h, if_neg (by linarith)]
    · subst h; simp
    · rw [if_neg (by linarith), if_pos h]
  · intro x y z; show x + y + z = x + z + y; ring

example : distanceFunc ideal (exHit 8400 0 300 0 20) (exHit 8401 600 300 0 20) =
    distanceFunc ideal (exHit 8401 600 300 0 20) (exHit 8400 0 300 0 20) :=
  ideal_symmetric _ _ rfl

/-- Two drifting hits of different duration. -/
def exA : Hit ℚ ℚ := exHit 8400 0 100 1 20
def exB : Hit ℚ ℚ := exHit 8400 0 20000 2 20

/-- **C26 fails: the distance is not symmetric** when durations differ, even in exact arithmetic, and
the difference decides between matching and not matching. -/
theorem C26_not_symmetric :
    ideal.ltF (distanceFunc ideal exB exA) ideal.fifty = true ∧
    ideal.ltF (distanceFunc ideal exA exB) ideal.fifty = false := by
  decide +kernel

/-- The answers of one `hit_distance` object to a sequence of queries. -/
def answers (o : EvOps F D) (m : OrdMap (Pair F D) F) : m.M → List (Pair F D) → List F
  | _, [] => []
  | c, p :: ps =>
    let r := cachedDistance o m c p.1 p.2
    r.1 :: answers o m r.2 ps

/-- **C26 (part): the cache.** For every sequence of queries without NaN, and any map that only finds
values stored under equivalent keys, every answer is the uncached distance of the queried pair taken
in one of its two orders; where the distance is symmetric that is the uncached distance itself. -/
theorem C26_cache_partial (o : EvOps F D) {oF : FOrd F} {oD : FOrd D} (hF : oF.Lawful)
    (hD : oD.Lawful) (tF : oF.Total) (tD : oD.Total) (hcong : Congr o oF oD)
    (m : OrdMap (Pair F D) F) (hm : m.Sound (comp oF oD)) (qs : List (Pair F D)) :
    List.Forall₂ (fun (q : Pair F D) v =>
      (v = distanceFunc o q.1 q.2 ∨ v = distanceFunc o q.2 q.1) ∧
      (distanceFunc o q.1 q.2 = distanceFunc o q.2 q.1 → v = distanceFunc o q.1 q.2))
      qs (answers o m m.empty qs) := by
  have ha := cachedDistance_answers o hF hD tF tD hcong m hm
  have : ∀ (qs : List (Pair F D)) (c : m.M), CacheInv o hm c →
      List.Forall₂ (fun (q : Pair F D) v =>
      (v = distanceFunc o q.1 q.2 ∨ v = distanceFunc o q.2 q.1) ∧
      (distanceFunc o q.1 q.2 = distanceFunc o q.2 q.1 → v = distanceFunc o q.1 q.2))
      qs (answers o m c qs) := by
    intro qs
    induction qs with
    | nil => intro c _; exact List.Forall₂.nil
    | cons q qs ih =>
      intro c hc
      refine List.Forall₂.cons ⟨ha.val c q.1 q.2 hc, ?_⟩ (ih _ (ha.inv c q.1 q.2 hc))
      intro hs
      rcases ha.val c q.1 q.2 hc with h | h
      · exact h
      · exact h.trans hs.symm
  exact this qs m.empty (cacheInv_empty o hm)

example : List.Forall₂ (fun (q : Pair ℚ ℚ) v =>
      (v = distanceFunc ideal q.1 q.2 ∨ v = distanceFunc ideal q.2 q.1) ∧
      (distanceFunc ideal q.1 q.2 = distanceFunc ideal q.2 q.1 → v = distanceFunc ideal q.1 q.2))
      [(exA, exB), (exB, exA)] (answers ideal exMap exMap.empty [(exA, exB), (exB, exA)]) :=
  C26_cache_partial ideal ratOrd_lawful ratOrd_lawful ratOrd_total ratOrd_total ideal_congr exMap
    (listMap_sound _) _

/-- **C26 fails: the cache changes answers.** After a query in one order, the query in the other
order is answered with the distance of the first order, which lies on the other side of 50. -/
theorem C26_cache_changes_answer :
    answers ideal exMap exMap.empty [(exB, exA), (exA, exB)] =
      [distanceFunc ideal exB exA, distanceFunc ideal exB exA] ∧
    answers ideal exMap exMap.empty [(exA, exB)] = [distanceFunc ideal exA exB] ∧
    distanceFunc ideal exB exA ≠ distanceFunc ideal exA exB := by
  refine ⟨?_, ?_, ?_⟩ <;> decide +kernel

/-- The comparator given to `std::map` is not transitive, so it is not the strict weak order that
`std::map` requires: `(1,2) < (1,3) < (2,1)` but `(1,2)` and `(2,1)` are equivalent. -/
theorem C26_comparator_not_transitive :
    ∃ a b c : Pair ℚ ℚ, comp ratOrd ratOrd a b = true ∧ comp ratOrd ratOrd b c = true ∧
      comp ratOrd ratOrd a c = false := by
  refine ⟨(exHit 1 0 1 0 1, exHit 2 0 1 0 1), (exHit 1 0 1 0 1, exHit 3 0 1 0 1),
    (exHit 2 0 1 0 1, exHit 1 0 1 0 1), ?_, ?_, ?_⟩ <;> decide +kernel

/-- With a NaN SNR two different pairs are equivalent keys, so one is answered with the other's
distance. -/
theorem C26_nan_conflates :
    ∃ p q : Pair (Option Int) Int, p.1.snr ≠ q.1.snr ∧
      comp Hit.nanOrd FOrd.int p q = false ∧ comp Hit.nanOrd FOrd.int q p = false :=
  ⟨(Hit.hitSnr none, Hit.hitSnr none), (Hit.hitSnr (some 1), Hit.hitSnr none),
    by simp [Hit.hitSnr], by decide +kernel, by decide +kernel⟩

/-! ## C27: every cadence -/

/-- **C27 (part).** On every cadence with at least one target, whatever its scans and hits (none,
NaN, infinite), event search returns a list of events. A cadence without targets is excluded:
`C27_no_targets_undefined`. -/
theorem C27_defined_partial (o : EvOps F D) (m : OrdMap (Pair F D) F)
    (hbig : o.ltF o.fltMax o.fifty = false) (on : List (ScanHits F D))
    (offs : List (List (ScanHits F D))) : ∃ es, eventSearch o m (on :: offs) = .ok es := by
  obtain ⟨es, -, h, -⟩ := eventSearch_uses o m hbig on offs
  exact ⟨es, h⟩

/-- **C27 fails**: on a cadence without targets the first target is read out of bounds. -/
theorem C27_no_targets_undefined (o : EvOps F D) (m : OrdMap (Pair F D) F) :
    eventSearch o m [] = .ub := rfl

/-- A first target with fewer than two scans yields no events. -/
theorem C27_single_scan (o : EvOps F D) (m : OrdMap (Pair F D) F)
    (hbig : o.ltF o.fltMax o.fifty = false) (on : List (ScanHits F D)) (hon : on.length < 2)
    (offs : List (List (ScanHits F D))) : eventSearch o m (on :: offs) = .ok [] := by
  obtain ⟨es, h⟩ := C27_defined_partial o m hbig on offs
  rw [h]
  cases es with
  | nil => rfl
  | cons e es =>
    obtain ⟨h2, scans, hlen, hpw, hs⟩ :=
      C22_events_use_distinct_scans o m hbig on offs _ h e (by simp)
    have h0 : 0 < scans.length := by omega
    have h1 : 1 < scans.length := by omega
    obtain ⟨s0, hs0, -⟩ := hs 0 scans[0] _ (List.getElem?_eq_getElem (by omega))
      (List.getElem?_eq_getElem h0)
    obtain ⟨s1, hs1, -⟩ := hs 1 scans[1] _ (List.getElem?_eq_getElem (by omega))
      (List.getElem?_eq_getElem h1)
    have hlt := List.pairwise_iff_getElem.1 hpw 0 1 h0 h1 (by omega)
    have := (List.getElem?_eq_some_iff.1 hs1).1
    omega

/-! ## C67: completeness -/

/-- **C67 (part).** For a cadence without NaN whose OFF scans have no hits: if two on scans contain
hits within 50 of each other (in both orders of the distance), event search reports an event. -/
theorem C67_event_found_partial (o : EvOps F D) {oF : FOrd F} {oD : FOrd D} (hF : oF.Lawful)
    (hD : oD.Lawful) (tF : oF.Total) (tD : oD.Total) (hcong : Congr o oF oD)
    (m : OrdMap (Pair F D) F) (hm : m.Sound (comp oF oD)) (hl : LtLaws o) (hnt : NotLtTrans o)
    (on : List (ScanHits F D)) (offs : List (List (ScanHits F D)))
    (hoff : ∀ t ∈ offs, ∀ sc ∈ t, sc.hits = [])
    (i j : Nat) (s t : ScanHits F D) (hij : i < j) (hs : on[i]? = some s) (ht : on[j]? = some t)
    (a b : Hit F D) (ha : a ∈ s.hits) (hb : b ∈ t.hits)
    (hab : o.ltF (distanceFunc o a b) o.fifty = true)
    (hba : o.ltF (distanceFunc o b a) o.fifty = true) :
    ∃ es, eventSearch o m (on :: offs) = .ok es ∧ es ≠ [] := by
  have hans := cachedDistance_answers o hF hD tF tD hcong m hm
  have hempty : offs.flatten.flatMap ScanHits.hits = [] := by
    rw [List.flatMap_eq_nil_iff]
    intro sc hsc
    obtain ⟨l, hl1, hl2⟩ := List.mem_flatten.mp hsc
    exact hoff l hl1 sc hl2
  obtain ⟨es, h1, h2⟩ := fromScans_complete hl hnt hans on (on.map ScanHits.hits) m.empty
    (cacheInv_empty o hm) (by simp)
  refine ⟨es, ?_, ?_⟩
  · unfold eventSearch searchWith
    simp only [hempty]
    exact h1
  · rcases h2 with h2 | h2
    · exact h2
    · exfalso
      refine h2 i j s.hits t.hits hij (by simp [hs]) (by simp [ht]) a ha b hb ?_
      intro v hv
      rcases hv with rfl | rfl
      · exact hab
      · exact hba

/-- Two scans with one hit each and no OFF hits. -/
example : ∃ es, eventSearch ideal exMap
    [[⟨1, 300, [exHit 8400 86400 300 0 20]⟩, ⟨2, 300, [exHit 8400 172800 300 0 30]⟩], [⟨3, 300, []⟩]]
      = .ok es ∧ es ≠ [] :=
  C67_event_found_partial ideal ratOrd_lawful ratOrd_lawful ratOrd_total ratOrd_total ideal_congr
    exMap (listMap_sound _) ideal_lt ideal_notLt _ _ (by simp) 0 1 _ _ (by omega) rfl rfl
    (exHit 8400 86400 300 0 20) (exHit 8400 172800 300 0 30) (by simp) (by simp)
    (by decide +kernel) (by decide +kernel)

/-- On scans: two hits 9 kHz apart in the first, one hit close to both in the second; an OFF hit
close to the first of them. -/
def exLost (first : List (Hit ℚ ℚ)) : List (List (ScanHits ℚ ℚ)) :=
  [[⟨1, 300, first⟩, ⟨2, 300, [exHit (8400 + 4 / 1000) 172800 300 0 30]⟩],
   [⟨3 / 2, 300, [exHit (8400 - 1 / 1000) 129600 300 0 10]⟩]]

/-- **C67 fails with OFF hits.** A candidate that is rejected because of an OFF hit keeps the hits it
took: with the interfering hit present in the first scan, the event that is found without it is
lost. -/
theorem C67_rejected_candidate_takes_hits :
    (∃ e, eventSearch ideal exMap (exLost [exHit (8400 + 8 / 1000) 86400 300 0 20]) = .ok [e]) ∧
    eventSearch ideal exMap (exLost [exHit 8400 86400 300 0 20,
      exHit (8400 + 8 / 1000) 86400 300 0 20]) = .ok [] := by
  refine ⟨⟨mkEvent ideal ⟨1, 300, [exHit (8400 + 8 / 1000) 86400 300 0 20]⟩
    (exHit (8400 + 8 / 1000) 86400 300 0 20)
    [exHit (8400 + 8 / 1000) 86400 300 0 20, exHit (8400 + 4 / 1000) 172800 300 0 30], ?_⟩, ?_⟩
  · decide +kernel
  · decide +kernel

end Bliss.Event
