import Verif.Event.Props

/-!
# OFF scans only remove events (C134)

`event_search` builds candidate events from the scans of the first target and drops those that are
also seen in a scan of another target. Here: whatever the other targets contain, the result is the
result without them, with some events left out — those that a hit of another target is close to.
-/

namespace Bliss.Event

open Bliss.Hit (Hit FOrd)
open Bliss.File (Event)

variable {F D C : Type}

/-- Specification: the hit `off` is close to the hits `ev` when the average of its distances to them
is below 50. -/
def CloseTo (o : EvOps F D) (ev : List (Hit F D)) (off : Hit F D) : Bool :=
  o.ltF (o.divF (ev.foldl (fun s x => o.addF s (distanceFunc o off x)) o.zeroF) (o.natF ev.length))
    o.fifty

/-- Specification: no hit of the scans `offs` is close to the event. -/
def Clear (o : EvOps F D) (offs : List (List (ScanHits F D))) (e : Event F D) : Bool :=
  offs.all fun t => t.all fun sc => sc.hits.all fun off => !CloseTo o e.hits off

/-- A distance without a cache. -/
def plain (d : Hit F D → Hit F D → F) : Unit → Hit F D → Hit F D → F × Unit :=
  fun _ a b => (d a b, ())

/-- For pairs in `R` the distance object answers `d`. -/
structure AgreesOn (R : Hit F D → Hit F D → Prop) (dist : C → Hit F D → Hit F D → F × C)
    (Inv : C → Prop) (d : Hit F D → Hit F D → F) : Prop where
  val : ∀ c a b, Inv c → R a b → (dist c a b).1 = d a b
  inv : ∀ c a b, Inv c → R a b → Inv (dist c a b).2

/-- Every hit of `l` and every hit of `l'` are related. -/
def Across (R : Hit F D → Hit F D → Prop) (l l' : List (Hit F D)) : Prop :=
  ∀ a ∈ l, ∀ b ∈ l', R a b

variable {o : EvOps F D} {R : Hit F D → Hit F D → Prop} {dist : C → Hit F D → Hit F D → F × C}
  {Inv : C → Prop} {d : Hit F D → Hit F D → F}

theorem pairwise_of_subset {ls ls' : List (List (Hit F D))}
    (h : List.Forall₂ (fun l' l => l' ⊆ l) ls' ls) (hp : ls.Pairwise (Across R)) :
    ls'.Pairwise (Across R) := by
  have hmem : ∀ {ls' ls : List (List (Hit F D))}, List.Forall₂ (fun l' l => l' ⊆ l) ls' ls →
      ∀ l' ∈ ls', ∃ l ∈ ls, l' ⊆ l := by
    intro ls' ls h
    induction h with
    | nil => intro l' hl; cases hl
    | cons h1 _ ih =>
      intro l' hl
      rcases List.mem_cons.1 hl with rfl | hl
      · exact ⟨_, List.mem_cons_self, h1⟩
      · obtain ⟨l, h2, h3⟩ := ih l' hl
        exact ⟨l, List.mem_cons_of_mem _ h2, h3⟩
  induction h with
  | nil => exact List.Pairwise.nil
  | cons h1 h2 ih =>
    rw [List.pairwise_cons] at hp ⊢
    refine ⟨?_, ih hp.2⟩
    intro l' hl' a ha b hb
    obtain ⟨l, hl, hsub⟩ := hmem h2 l' hl'
    exact hp.1 l hl a (h1 ha) b (hsub hb)

theorem forall₂_subset {ls ls' : List (List (Hit F D))}
    (h : List.Forall₂ (fun l' l => l' ⊆ l) ls' ls) {l' : List (Hit F D)} (hl : l' ∈ ls') :
    ∃ l ∈ ls, l' ⊆ l := by
  induction h with
  | nil => cases hl
  | cons h1 _ ih =>
    rcases List.mem_cons.1 hl with rfl | hl
    · exact ⟨_, List.mem_cons_self, h1⟩
    · obtain ⟨l, h2, h3⟩ := ih hl
      exact ⟨l, List.mem_cons_of_mem _ h2, h3⟩

theorem subset_trans₂ {as bs cs : List (List (Hit F D))}
    (h1 : List.Forall₂ (fun l' l => l' ⊆ l) as bs) (h2 : List.Forall₂ (fun l' l => l' ⊆ l) bs cs) :
    List.Forall₂ (fun l' l => l' ⊆ l) as cs := by
  induction h1 generalizing cs with
  | nil => exact h2
  | cons h _ ih =>
    cases h2 with
    | cons h' h2 => exact List.Forall₂.cons (fun x hx => h' (h hx)) (ih h2)

theorem lowest_agree (ha : AgreesOn R dist Inv d) (h : Hit F D) (ev : List (Hit F D))
    (hev : ∀ e ∈ ev, R e h) (low : F) (c : C) (hc : Inv c) :
    (lowest o dist h ev low c).1 = (lowest o (plain d) h ev low ()).1 ∧
      Inv (lowest o dist h ev low c).2 := by
  induction ev generalizing low c with
  | nil => exact ⟨rfl, hc⟩
  | cons e es ih =>
    simp only [lowest, plain]
    rw [ha.val c e h hc (hev e List.mem_cons_self)]
    exact ih (fun x hx => hev x (List.mem_cons_of_mem _ hx)) _ _
      (ha.inv c e h hc (hev e List.mem_cons_self))

theorem pickBest_agree (ha : AgreesOn R dist Inv d) (ev hits : List (Hit F D))
    (hR : Across R ev hits) (i : Nat) (best : F) (at' : Option Nat) (c : C) (hc : Inv c) :
    (pickBest o dist ev hits i best at' c).1 = (pickBest o (plain d) ev hits i best at' ()).1 ∧
    (pickBest o dist ev hits i best at' c).2.1 =
      (pickBest o (plain d) ev hits i best at' ()).2.1 ∧
    Inv (pickBest o dist ev hits i best at' c).2.2 := by
  induction hits generalizing i best at' c with
  | nil => exact ⟨rfl, rfl, hc⟩
  | cons h hs ih =>
    simp only [pickBest]
    obtain ⟨h1, h2⟩ := lowest_agree (o := o) ha h ev (fun e he => hR e he h List.mem_cons_self)
      o.fltMax c hc
    have hs' : Across R ev hs := fun e he x hx => hR e he x (List.mem_cons_of_mem _ hx)
    rw [h1]
    by_cases hl : o.ltF (lowest o (plain d) h ev o.fltMax ()).1 best = true
    · rw [if_pos hl, if_pos hl]
      exact ih hs' _ _ _ _ h2
    · rw [if_neg hl, if_neg hl]
      exact ih hs' _ _ _ _ h2

theorem matchScan_agree (ha : AgreesOn R dist Inv d) (ev hits : List (Hit F D))
    (hR : Across R ev hits) (c : C) (hc : Inv c)
    {ev' hits' : List (Hit F D)} {u : Unit}
    (h : matchScan o (plain d) ev hits () = .ok (ev', hits', u)) :
    ∃ c', matchScan o dist ev hits c = .ok (ev', hits', c') ∧ Inv c' ∧
      (∀ e ∈ ev', e ∈ ev ∨ e ∈ hits) ∧ hits' ⊆ hits := by
  obtain ⟨h1, h2, h3⟩ := pickBest_agree (o := o) ha ev hits hR 0 o.fltMax none c hc
  unfold matchScan at h ⊢
  simp only [] at h ⊢
  rw [h1, h2]
  generalize pickBest o (plain d) ev hits 0 o.fltMax none () = r at h
  generalize pickBest o dist ev hits 0 o.fltMax none c = q at h3
  by_cases hl : o.ltF r.1 o.fifty = true
  · rw [if_pos hl] at h ⊢
    cases hr : r.2.1 with
    | none => rw [hr] at h; cases h
    | some i =>
      rw [hr] at h
      simp only [] at h ⊢
      cases hi : hits[i]? with
      | none => rw [hi] at h; cases h
      | some x =>
        rw [hi] at h
        simp only [Outcome.ok.injEq, Prod.mk.injEq] at h ⊢
        obtain ⟨rfl, rfl, -⟩ := h
        refine ⟨_, ⟨rfl, rfl, rfl⟩, h3, ?_, ?_⟩
        · intro e he
          rcases List.mem_append.1 he with he | he
          · exact .inl he
          · rw [List.mem_singleton.1 he]; exact .inr (List.mem_of_getElem? hi)
        · exact fun e he => List.mem_of_mem_eraseIdx he
  · rw [if_neg hl] at h ⊢
    simp only [Outcome.ok.injEq, Prod.mk.injEq] at h ⊢
    obtain ⟨rfl, rfl, -⟩ := h
    exact ⟨_, ⟨rfl, rfl, rfl⟩, h3, fun e he => .inl he, fun _ he => he⟩

theorem extend_agree (ha : AgreesOn R dist Inv d) (ev : List (Hit F D))
    (rest : List (List (Hit F D))) (hev : ∀ l ∈ rest, Across R ev l)
    (hrest : rest.Pairwise (Across R)) (c : C)
    (hc : Inv c) {ev' : List (Hit F D)} {rest' : List (List (Hit F D))} {u : Unit}
    (h : extend o (plain d) ev rest () = .ok (ev', rest', u)) :
    ∃ c', extend o dist ev rest c = .ok (ev', rest', c') ∧ Inv c' ∧
      (∀ e ∈ ev', e ∈ ev ∨ ∃ l ∈ rest, e ∈ l) ∧ List.Forall₂ (fun l' l => l' ⊆ l) rest' rest := by
  induction rest generalizing ev c ev' rest' u with
  | nil =>
    simp only [extend, Outcome.ok.injEq, Prod.mk.injEq] at h ⊢
    obtain ⟨rfl, rfl, -⟩ := h
    exact ⟨c, ⟨rfl, rfl, rfl⟩, hc, fun e he => .inl he, List.Forall₂.nil⟩
  | cons hits rest ih =>
    simp only [extend] at h ⊢
    rw [List.pairwise_cons] at hrest
    cases hm : matchScan o (plain d) ev hits () with
    | throws e => rw [hm] at h; cases h
    | ub => rw [hm] at h; cases h
    | ok r =>
      obtain ⟨ev1, hits1, u1⟩ := r
      rw [hm] at h
      simp only [Outcome.bind_ok] at h
      obtain ⟨c1, g1, g2, g3, g4⟩ := matchScan_agree ha ev hits (hev hits List.mem_cons_self) c hc hm
      cases he : extend o (plain d) ev1 rest u1 with
      | throws e => rw [he] at h; cases h
      | ub => rw [he] at h; cases h
      | ok r =>
        obtain ⟨ev2, rest2, u2⟩ := r
        rw [he] at h
        simp only [Outcome.bind_ok, Outcome.pure_eq, Outcome.ok.injEq, Prod.mk.injEq] at h
        obtain ⟨rfl, rfl, -⟩ := h
        obtain ⟨c2, k1, k2, k3, k4⟩ := ih ev1 (fun l hl e he x hx => by
          rcases g3 e he with he | he
          · exact hev l (List.mem_cons_of_mem _ hl) e he x hx
          · exact hrest.1 l hl e he x hx) hrest.2 c1 g2 he
        rw [g1]
        simp only [Outcome.bind_ok]
        rw [k1]
        refine ⟨c2, rfl, k2, ?_, List.Forall₂.cons g4 k4⟩
        intro e he
        rcases k3 e he with he | ⟨l, hl, he⟩
        · rcases g3 e he with he | he
          · exact .inl he
          · exact .inr ⟨hits, List.mem_cons_self, he⟩
        · exact .inr ⟨l, List.mem_cons_of_mem _ hl, he⟩

theorem sumDist_agree (ha : AgreesOn R dist Inv d) (off : Hit F D)
    (ev : List (Hit F D)) (hev : ∀ e ∈ ev, R off e) (s : F) (c : C) (hc : Inv c) :
    (sumDist o dist off ev s c).1 = ev.foldl (fun s x => o.addF s (d off x)) s ∧
      Inv (sumDist o dist off ev s c).2 := by
  induction ev generalizing s c with
  | nil => exact ⟨rfl, hc⟩
  | cons e es ih =>
    simp only [sumDist, List.foldl_cons]
    rw [ha.val c off e hc (hev e List.mem_cons_self)]
    exact ih (fun x hx => hev x (List.mem_cons_of_mem _ hx)) _ _
      (ha.inv c off e hc (hev e List.mem_cons_self))

theorem timesInOff_agree (ha : AgreesOn R dist Inv (distanceFunc o)) (ev : List (Hit F D))
    (offs : List (Hit F D)) (hoffs : Across R offs ev) (n : Nat) (c : C)
    (hc : Inv c) :
    ((timesInOff o dist ev offs n c).1 = 0 ↔ n = 0 ∧ ∀ off ∈ offs, CloseTo o ev off = false) ∧
      Inv (timesInOff o dist ev offs n c).2 := by
  induction offs generalizing n c with
  | nil => simp [timesInOff, hc]
  | cons off offs ih =>
    simp only [timesInOff]
    obtain ⟨h1, h2⟩ := sumDist_agree ha off ev (hoffs off List.mem_cons_self) o.zeroF c hc
    rw [h1]
    have hcl : o.ltF (o.divF (ev.foldl (fun s x => o.addF s (distanceFunc o off x)) o.zeroF)
        (o.natF ev.length)) o.fifty = CloseTo o ev off := rfl
    rw [hcl]
    obtain ⟨k1, k2⟩ := ih (fun x hx => hoffs x (List.mem_cons_of_mem _ hx))
      (if CloseTo o ev off = true then n + 1 else n) _ h2
    refine ⟨?_, k2⟩
    rw [k1]
    cases hv : CloseTo o ev off with
    | true => simp [hv]
    | false => simp [hv]

/-- The event is clear of the hits `offs`. -/
def clearOf (o : EvOps F D) (offs : List (Hit F D)) (e : Event F D) : Bool :=
  offs.all fun off => !CloseTo o e.hits off

theorem clearOf_flat (offs : List (List (ScanHits F D))) (e : Event F D) :
    clearOf o (offs.flatten.flatMap ScanHits.hits) e = Clear o offs e := by
  rw [Bool.eq_iff_iff]
  simp only [clearOf, Clear, List.all_eq_true, List.mem_flatMap, List.mem_flatten]
  constructor
  · intro h t ht sc hsc off hoff
    exact h off ⟨sc, ⟨t, ht, hsc⟩, hoff⟩
  · rintro h off ⟨sc, ⟨t, ht, hsc⟩, hoff⟩
    exact h t ht sc hsc off hoff

theorem fromScan_veto (ha : AgreesOn R dist Inv (distanceFunc o)) (offs : List (Hit F D))
    (sc : ScanHits F D) (hs : List (Hit F D))
    (rest : List (List (Hit F D))) (hhs : ∀ l ∈ rest, Across R hs l)
    (hrest : rest.Pairwise (Across R)) (ho1 : Across R offs hs) (ho2 : ∀ l ∈ rest, Across R offs l)
    (c : C) (hc : Inv c) {es : List (Event F D)} {rest' : List (List (Hit F D))} {u : Unit}
    (h : fromScan o (plain (distanceFunc o)) [] sc hs rest () = .ok (es, rest', u)) :
    ∃ c', fromScan o dist offs sc hs rest c = .ok (es.filter (clearOf o offs), rest', c') ∧
      Inv c' ∧ List.Forall₂ (fun l' l => l' ⊆ l) rest' rest := by
  induction hs generalizing rest c es rest' u with
  | nil =>
    simp only [fromScan, Outcome.ok.injEq, Prod.mk.injEq] at h ⊢
    obtain ⟨rfl, rfl, -⟩ := h
    exact ⟨c, ⟨rfl, rfl, rfl⟩, hc, List.forall₂_same.2 fun _ _ _ hx => hx⟩
  | cons x hs ih =>
    simp only [fromScan] at h ⊢
    cases he : extend o (plain (distanceFunc o)) [x] rest () with
    | throws e => rw [he] at h; cases h
    | ub => rw [he] at h; cases h
    | ok r =>
      obtain ⟨ev, rest1, u1⟩ := r
      rw [he] at h
      simp only [Outcome.bind_ok, timesInOff] at h
      obtain ⟨c1, g1, g2, g3, g4⟩ := extend_agree ha [x] rest
        (fun l hl e he b hb => by
          rw [List.mem_singleton.1 he]; exact hhs l hl x List.mem_cons_self b hb) hrest c hc he
      obtain ⟨t1, t2⟩ := timesInOff_agree ha ev offs (fun a ha' e he => by
        rcases g3 e he with he | ⟨l, hl, he⟩
        · rw [List.mem_singleton.1 he]; exact ho1 a ha' x List.mem_cons_self
        · exact ho2 l hl a ha' e he) 0 c1 g2
      cases hf : fromScan o (plain (distanceFunc o)) [] sc hs rest1 u1 with
      | throws e => rw [hf] at h; cases h
      | ub => rw [hf] at h; cases h
      | ok r =>
        obtain ⟨es2, rest2, u2⟩ := r
        rw [hf] at h
        simp only [Outcome.bind_ok, Outcome.pure_eq, Outcome.ok.injEq, Prod.mk.injEq] at h
        obtain ⟨rfl, rfl, -⟩ := h
        obtain ⟨c2, k1, k2, k3⟩ := ih rest1
          (fun l' hl' a ha' b hb => by
            obtain ⟨l, hl, hsub⟩ := forall₂_subset g4 hl'
            exact hhs l hl a (List.mem_cons_of_mem _ ha') b (hsub hb))
          (pairwise_of_subset g4 hrest)
          (fun a ha' b hb => ho1 a ha' b (List.mem_cons_of_mem _ hb))
          (fun l' hl' a ha' b hb => by
            obtain ⟨l, hl, hsub⟩ := forall₂_subset g4 hl'
            exact ho2 l hl a ha' b (hsub hb))
          (timesInOff o dist ev offs 0 c1).2 t2 hf
        rw [g1]
        simp only [Outcome.bind_ok]
        rw [k1]
        simp only [Outcome.bind_ok, Outcome.pure_eq, Outcome.ok.injEq, Prod.mk.injEq]
        refine ⟨c2, ⟨?_, trivial, rfl⟩, k2, ?_⟩
        · have hclear : clearOf o offs (mkEvent o sc x ev) = true ↔
              (timesInOff o dist ev offs 0 c1).1 = 0 := by
            rw [t1]
            simp [clearOf, mkEvent]
          by_cases h1 : ev.length > 1
          · by_cases h2 : (timesInOff o dist ev offs 0 c1).1 = 0
            · rw [if_pos ⟨h1, h2⟩, if_pos ⟨h1, trivial⟩, List.filter_cons_of_pos (hclear.2 h2)]
            · rw [if_neg (fun hh => h2 hh.2), if_pos ⟨h1, trivial⟩,
                List.filter_cons_of_neg (fun hh => h2 (hclear.1 hh))]
          · rw [if_neg (fun hh => h1 hh.1), if_neg (fun hh => h1 hh.1)]
        · exact subset_trans₂ k3 g4

theorem fromScans_veto (ha : AgreesOn R dist Inv (distanceFunc o)) (offs : List (Hit F D))
    (scs : List (ScanHits F D)) (hits : List (List (Hit F D)))
    (hhits : hits.Pairwise (Across R)) (hoffs : ∀ l ∈ hits, Across R offs l)
    (c : C) (hc : Inv c) {es : List (Event F D)}
    (h : fromScans o (plain (distanceFunc o)) [] scs hits () = .ok es) :
    fromScans o dist offs scs hits c = .ok (es.filter (clearOf o offs)) := by
  induction scs generalizing hits c es with
  | nil =>
    simp only [fromScans, Outcome.ok.injEq] at h ⊢
    subst h; rfl
  | cons sc scs ih =>
    cases hits with
    | nil =>
      simp only [fromScans, Outcome.ok.injEq] at h ⊢
      subst h; rfl
    | cons l rest =>
      simp only [fromScans] at h ⊢
      rw [List.pairwise_cons] at hhits
      cases hf : fromScan o (plain (distanceFunc o)) [] sc l rest () with
      | throws e => rw [hf] at h; cases h
      | ub => rw [hf] at h; cases h
      | ok r =>
        obtain ⟨es1, rest1, u1⟩ := r
        rw [hf] at h
        simp only [Outcome.bind_ok] at h
        obtain ⟨c1, g1, g2, g3⟩ := fromScan_veto ha offs sc l rest hhits.1 hhits.2
          (hoffs l List.mem_cons_self) (fun l' hl' => hoffs l' (List.mem_cons_of_mem _ hl')) c hc hf
        cases hs : fromScans o (plain (distanceFunc o)) [] scs rest1 u1 with
        | throws e => rw [hs] at h; cases h
        | ub => rw [hs] at h; cases h
        | ok es2 =>
          rw [hs] at h
          simp only [Outcome.bind_ok, Outcome.pure_eq, Outcome.ok.injEq] at h
          subst h
          rw [g1]
          simp only [Outcome.bind_ok]
          rw [ih rest1 (pairwise_of_subset g3 hhits.2) (fun l' hl' a ha' b hb => by
            obtain ⟨l, hl, hsub⟩ := forall₂_subset g3 hl'
            exact hoffs l (List.mem_cons_of_mem _ hl) a ha' b (hsub hb)) c1 g2 hs]
          simp only [Outcome.bind_ok, Outcome.pure_eq, List.filter_append]

/-- The hits of a cadence. -/
def hitsOf (cadence : List (List (ScanHits F D))) : List (Hit F D) :=
  cadence.flatten.flatMap ScanHits.hits

/-! ## When the cache does not show -/

/-- Specification: hits of different scans of the first target start at different times, and so do
hits of other targets and hits of the first. (Every hit of a scan starts when the scan starts, so this
is so when no two scans start at the same time.) -/
structure Timed (oD : FOrd D) (on : List (ScanHits F D)) (offs : List (List (ScanHits F D))) :
    Prop where
  scans : on.Pairwise fun s s' => ∀ a ∈ s.hits, ∀ b ∈ s'.hits, oD.eq a.startTime b.startTime = false
  targets : ∀ a ∈ hitsOf offs, ∀ b ∈ hitsOf [on], oD.eq a.startTime b.startTime = false

/-- Specification: the distance is symmetric on the hits of the cadence, or the cadence is timed. -/
def Steady (o : EvOps F D) (oD : FOrd D) (on : List (ScanHits F D))
    (offs : List (List (ScanHits F D))) : Prop :=
  (∀ a ∈ hitsOf (on :: offs), ∀ b ∈ hitsOf (on :: offs), distanceFunc o a b = distanceFunc o b a) ∨
  Timed oD on offs

/-- The distance of `a` and `b` is asked for in this order: `a` is of an earlier scan of the first
target, or of another target. -/
def Asked (on : List (ScanHits F D)) (offs : List (List (ScanHits F D))) (a b : Hit F D) : Prop :=
  (∃ (i j : Nat) (s s' : ScanHits F D), i < j ∧ on[i]? = some s ∧ on[j]? = some s' ∧ a ∈ s.hits ∧
    b ∈ s'.hits) ∨ (a ∈ hitsOf offs ∧ b ∈ hitsOf [on])

theorem mem_hitsOf_one {on : List (ScanHits F D)} {a : Hit F D} :
    a ∈ hitsOf [on] ↔ ∃ (i : Nat) (s : ScanHits F D), on[i]? = some s ∧ a ∈ s.hits := by
  simp only [hitsOf, List.flatten_cons, List.flatten_nil, List.append_nil, List.mem_flatMap]
  constructor
  · rintro ⟨s, hs, ha⟩
    obtain ⟨i, hi⟩ := List.getElem?_of_mem hs
    exact ⟨i, s, hi, ha⟩
  · rintro ⟨i, s, hi, ha⟩
    exact ⟨s, List.mem_of_getElem? hi, ha⟩

theorem Timed.ne {oD : FOrd D} {on : List (ScanHits F D)} {offs : List (List (ScanHits F D))}
    (h : Timed oD on offs) {a b : Hit F D} (hab : Asked on offs a b) :
    oD.eq a.startTime b.startTime = false := by
  rcases hab with ⟨i, j, s, s', hij, hi, hj, ha, hb⟩ | ⟨ha, hb⟩
  · have := h.scans
    rw [List.pairwise_iff_getElem] at this
    obtain ⟨hi', rfl⟩ := List.getElem?_eq_some_iff.1 hi
    obtain ⟨hj', rfl⟩ := List.getElem?_eq_some_iff.1 hj
    exact this i j hi' hj' hij a ha b hb
  · exact h.targets a ha b hb

theorem beq_start {oF : FOrd F} {oD : FOrd D} {a b : Hit F D} (h : Hit.beq oF oD a b = true) :
    oD.eq a.startTime b.startTime = true := by
  simp only [Hit.beq, Bool.and_eq_true] at h
  tauto

/-- In a timed cadence no pair is asked for in both orders. -/
theorem Timed.one_order {oF : FOrd F} {oD : FOrd D} (hD : oD.Lawful) {on : List (ScanHits F D)}
    {offs : List (List (ScanHits F D))} (h : Timed oD on offs) {a b a' b' : Hit F D}
    (hab : Asked on offs a b) (hab' : Asked on offs a' b') (h1 : Hit.beq oF oD a b' = true)
    (h2 : Hit.beq oF oD b a' = true) : False := by
  have e1 := beq_start h1
  have e2 := beq_start h2
  have no : ∀ x y, Asked on offs x y → oD.eq x.startTime y.startTime = true → False := by
    intro x y hxy he
    rw [h.ne hxy] at he; cases he
  have no' : ∀ x y, Asked on offs x y → oD.eq y.startTime x.startTime = true → False :=
    fun x y hxy he => no x y hxy (hD.eq_symm _ _ he)
  have on2 : ∀ {x y}, Asked on offs x y → y ∈ hitsOf [on] := by
    rintro x y (⟨i, j, s, s', -, -, hj, -, hy⟩ | ⟨-, hy⟩)
    · exact mem_hitsOf_one.2 ⟨j, s', hj, hy⟩
    · exact hy
  rcases hab with ⟨i, j, s, s', hij, hi, hj, ha, hb⟩ | ⟨ha, hb⟩
  · rcases hab' with ⟨i', j', t, t', hij', hi', hj', ha', hb'⟩ | ⟨ha', hb'⟩
    · have k1 : i = j' := by
        rcases Nat.lt_trichotomy i j' with hlt | heq | hlt
        · exact (no a b' (.inl ⟨i, j', s, t', hlt, hi, hj', ha, hb'⟩) e1).elim
        · exact heq
        · exact (no' b' a (.inl ⟨j', i, t', s, hlt, hj', hi, hb', ha⟩) e1).elim
      have k2 : j = i' := by
        rcases Nat.lt_trichotomy j i' with hlt | heq | hlt
        · exact (no b a' (.inl ⟨j, i', s', t, hlt, hj, hi', hb, ha'⟩) e2).elim
        · exact heq
        · exact (no' a' b (.inl ⟨i', j, t, s', hlt, hi', hj, ha', hb⟩) e2).elim
      omega
    · exact no' a' b (.inr ⟨ha', mem_hitsOf_one.2 ⟨j, s', hj, hb⟩⟩) e2
  · exact no a b' (.inr ⟨ha, on2 hab'⟩) e1

/-- Stored distances are those of their keys, and only pairs that were asked for are stored. -/
def AskedInv (o : EvOps F D) {m : OrdMap (Pair F D) F} {cmp : Pair F D → Pair F D → Bool}
    (hm : m.Sound cmp) (on : List (ScanHits F D)) (offs : List (List (ScanHits F D))) (c : m.M) :
    Prop :=
  ∀ k v, hm.Stores c k v → v = distanceFunc o k.1 k.2 ∧ Asked on offs k.1 k.2

theorem mem_hitsOf {cadence : List (List (ScanHits F D))} {a : Hit F D} :
    a ∈ hitsOf cadence ↔ ∃ t ∈ cadence, ∃ sc ∈ t, a ∈ sc.hits := by
  simp only [hitsOf, List.mem_flatMap, List.mem_flatten]
  constructor
  · rintro ⟨sc, ⟨t, ht, hsc⟩, ha⟩; exact ⟨t, ht, sc, hsc, ha⟩
  · rintro ⟨t, ht, sc, hsc, ha⟩; exact ⟨sc, ⟨t, ht, hsc⟩, ha⟩

theorem across_asked (on : List (ScanHits F D)) (offs : List (List (ScanHits F D))) :
    (on.map ScanHits.hits).Pairwise (Across (Asked on offs)) ∧
      ∀ l ∈ on.map ScanHits.hits, Across (Asked on offs) (hitsOf offs) l := by
  constructor
  · rw [List.pairwise_iff_getElem]
    intro i j hi hj hij a ha b hb
    rw [List.getElem_map] at ha hb
    rw [List.length_map] at hi hj
    exact .inl ⟨i, j, _, _, hij, List.getElem?_eq_getElem hi, List.getElem?_eq_getElem hj, ha, hb⟩
  · intro l hl a ha b hb
    obtain ⟨sc, hsc, rfl⟩ := List.mem_map.1 hl
    exact .inr ⟨ha, mem_hitsOf.2 ⟨on, by simp, sc, hsc, hb⟩⟩

theorem asked_mem {on : List (ScanHits F D)} {offs : List (List (ScanHits F D))} {a b : Hit F D}
    (h : Asked on offs a b) : a ∈ hitsOf (on :: offs) ∧ b ∈ hitsOf (on :: offs) := by
  have h1 : ∀ {x}, x ∈ hitsOf [on] → x ∈ hitsOf (on :: offs) := by
    intro x hx
    obtain ⟨t, ht, sc, hsc, hx⟩ := mem_hitsOf.1 hx
    rw [List.mem_singleton] at ht
    exact mem_hitsOf.2 ⟨on, List.mem_cons_self, sc, ht ▸ hsc, hx⟩
  rcases h with ⟨i, j, s, s', -, hi, hj, ha, hb⟩ | ⟨ha, hb⟩
  · exact ⟨h1 (mem_hitsOf_one.2 ⟨i, s, hi, ha⟩), h1 (mem_hitsOf_one.2 ⟨j, s', hj, hb⟩)⟩
  · refine ⟨?_, h1 hb⟩
    obtain ⟨t, ht, sc, hsc, ha⟩ := mem_hitsOf.1 ha
    exact mem_hitsOf.2 ⟨t, List.mem_cons_of_mem _ ht, sc, hsc, ha⟩

/-- The cache answers every question of the search with the distance itself. -/
theorem steady_agrees (o : EvOps F D) {oF : FOrd F} {oD : FOrd D} (hF : oF.Lawful)
    (hD : oD.Lawful) (tF : oF.Total) (tD : oD.Total) (hcong : Congr o oF oD)
    (m : OrdMap (Pair F D) F) (hm : m.Sound (comp oF oD)) (on : List (ScanHits F D))
    (offs : List (List (ScanHits F D))) (hst : Steady o oD on offs) :
    AgreesOn (Asked on offs) (cachedDistance o m) (AskedInv o hm on offs) (distanceFunc o) := by
  constructor
  · intro c a b hc hab
    unfold cachedDistance
    cases hf : m.find c (a, b) with
    | none => rfl
    | some d =>
      obtain ⟨k, hs, h1, h2⟩ := hm.find c (a, b) d hf
      obtain ⟨hd, hk⟩ := hc k d hs
      show d = _
      rcases comp_equiv hF hD tF tD (a, b) k h1 h2 with h | h
      · rw [hd]; exact (hcong _ _ _ _ h.1 h.2).symm
      · rcases hst with hsym | ht
        · rw [hd, hsym a (asked_mem hab).1 b (asked_mem hab).2]
          exact (hcong _ _ _ _ h.2 h.1).symm
        · exact (ht.one_order hD hab hk h.1 h.2).elim
  · intro c a b hc hab
    unfold cachedDistance
    cases hf : m.find c (a, b) with
    | none =>
      intro k v hs
      rcases hm.insert c (a, b) _ k v hf hs with h | ⟨rfl, rfl⟩
      · exact hc k v h
      · exact ⟨rfl, hab⟩
    | some d => exact hc

/-- In a steady cadence the cache does not show: the events are those of the search without a cache
and without the other targets, less those another target is close to. -/
theorem eventSearch_plain (o : EvOps F D) {oF : FOrd F} {oD : FOrd D} (hF : oF.Lawful)
    (hD : oD.Lawful) (tF : oF.Total) (tD : oD.Total) (hcong : Congr o oF oD)
    (m : OrdMap (Pair F D) F) (hm : m.Sound (comp oF oD)) (on : List (ScanHits F D))
    (offs : List (List (ScanHits F D))) (hst : Steady o oD on offs) {es : List (Event F D)}
    (he : fromScans o (plain (distanceFunc o)) [] on (on.map ScanHits.hits) () = .ok es) :
    eventSearch o m (on :: offs) = .ok (es.filter (Clear o offs)) := by
  have ha := steady_agrees o hF hD tF tD hcong m hm on offs hst
  have := fromScans_veto ha (hitsOf offs) on _ (across_asked on offs).1 (across_asked on offs).2
    m.empty (fun k v hk => absurd hk (hm.empty k v)) he
  unfold eventSearch searchWith
  simp only []
  exact this.trans (by
    congr 1
    exact List.filter_congr fun e _ => clearOf_flat offs e)

/-- The search without a cache. -/
theorem searchWith_plain (o : EvOps F D) (on : List (ScanHits F D))
    (offs : List (List (ScanHits F D))) {es : List (Event F D)}
    (he : fromScans o (plain (distanceFunc o)) [] on (on.map ScanHits.hits) () = .ok es) :
    searchWith o (plain (distanceFunc o)) () (on :: offs) = .ok (es.filter (Clear o offs)) := by
  have ha : AgreesOn (fun _ _ => True) (plain (distanceFunc o)) (fun _ => True) (distanceFunc o) :=
    ⟨fun _ _ _ _ _ => rfl, fun _ _ _ _ _ => trivial⟩
  have := fromScans_veto ha (hitsOf offs) on (on.map ScanHits.hits)
    (List.pairwise_of_forall fun _ _ _ _ _ _ => trivial) (fun _ _ _ _ _ _ => trivial) () trivial he
  unfold searchWith
  simp only []
  exact this.trans (by
    congr 1
    exact List.filter_congr fun e _ => clearOf_flat offs e)

/-- **C26 (part): the cache during a search.** In a search of a cadence that is timed, or on whose
hits the distance is symmetric, every answer of the cache is the distance itself: the events are those
of the search without a cache. -/
theorem C26_search_partial (o : EvOps F D) {oF : FOrd F} {oD : FOrd D} (hF : oF.Lawful)
    (hD : oD.Lawful) (tF : oF.Total) (tD : oD.Total) (hcong : Congr o oF oD)
    (m : OrdMap (Pair F D) F) (hm : m.Sound (comp oF oD))
    (hbig : o.ltF o.fltMax o.fifty = false) (on : List (ScanHits F D))
    (offs : List (List (ScanHits F D))) (hst : Steady o oD on offs) :
    ∃ es, eventSearch o m (on :: offs) = .ok es ∧
      searchWith o (fun _ a b => (distanceFunc o a b, ())) () (on :: offs) = .ok es := by
  obtain ⟨es, _, he, -, -⟩ := fromScans_uses (dist := plain (distanceFunc o)) hbig [] 0 on
    (on.map ScanHits.hits) ()
  exact ⟨_, eventSearch_plain o hF hD tF tD hcong m hm on offs hst he, searchWith_plain o on offs he⟩

/-- **C24 in a steady cadence, in full.** Every hit of an event but the first is within 50 of an
earlier hit of the event, and the average distance of every hit of every other target to the hits of
the event is not below 50. -/
theorem C24_distances (o : EvOps F D) {oF : FOrd F} {oD : FOrd D} (hF : oF.Lawful)
    (hD : oD.Lawful) (tF : oF.Total) (tD : oD.Total) (hcong : Congr o oF oD)
    (m : OrdMap (Pair F D) F) (hm : m.Sound (comp oF oD)) (hl : LtLaws o)
    (on : List (ScanHits F D)) (offs : List (List (ScanHits F D))) (hst : Steady o oD on offs)
    (es : List (Event F D)) (h : eventSearch o m (on :: offs) = .ok es) :
    ∀ e ∈ es,
      (∀ (i : Nat) (x : Hit F D), 0 < i → e.hits[i]? = some x → ∃ (j : Nat) (y : Hit F D), j < i ∧
        e.hits[j]? = some y ∧ o.ltF (distanceFunc o y x) o.fifty = true) ∧
      (∀ t ∈ offs, ∀ sc ∈ t, ∀ off ∈ sc.hits,
        o.ltF (o.divF ((e.hits.map (distanceFunc o off)).foldl o.addF o.zeroF)
          (o.natF e.hits.length)) o.fifty = false) := by
  obtain ⟨es', h1, h2⟩ := C26_search_partial o hF hD tF tD hcong m hm hl.big on offs hst
  rw [h] at h1
  cases h1
  have ha : Answers (plain (distanceFunc o)) (fun _ => True) (fun a b v => v = distanceFunc o a b) :=
    ⟨fun _ _ _ _ => rfl, fun _ _ _ _ => trivial⟩
  have hsub : ∀ (i : Nat) (sc : ScanHits F D) (hs : List (Hit F D)), on[i]? = some sc →
      (on.map ScanHits.hits)[i]? = some hs → ∀ h ∈ hs, h ∈ sc.hits := by
    intro i sc hs h1 h2 x hx
    rw [List.getElem?_map, h1] at h2
    simp only [Option.map_some, Option.some.injEq] at h2
    exact h2 ▸ hx
  have hmain := fromScans_close hl ha (offs.flatten.flatMap ScanHits.hits) on
    (on.map ScanHits.hits) () trivial (by simp) hsub h2
  intro e he
  obtain ⟨hch, hclear, -⟩ := hmain e he
  constructor
  · intro i x hi hx
    obtain ⟨j, y, v, hj, hy, rfl, hv⟩ := hch i x hi hx
    exact ⟨j, y, hj, hy, hv⟩
  · intro t ht sc hsc off hoff
    obtain ⟨vs, h1, h2⟩ := hclear off (List.mem_flatMap.2 ⟨sc, List.mem_flatten.2 ⟨t, ht, hsc⟩, hoff⟩)
    have : ∀ {l : List (Hit F D)} {vs : List F},
        List.Forall₂ (fun x v => v = distanceFunc o off x) l vs → vs = l.map (distanceFunc o off) := by
      intro l vs h
      induction h with
      | nil => rfl
      | cons h _ ih => rw [h, ih]; rfl
    rw [← this h1]; exact h2

/-- Adding targets, or leaving them out. -/
theorem Steady.mono {o : EvOps F D} {oD : FOrd D} {on : List (ScanHits F D)}
    {offs offs' : List (List (ScanHits F D))} (h : Steady o oD on offs') (hsub : offs ⊆ offs') :
    Steady o oD on offs := by
  have h1 : ∀ a ∈ hitsOf offs, a ∈ hitsOf offs' := by
    intro a ha
    obtain ⟨t, ht, sc, hsc, ha⟩ := mem_hitsOf.1 ha
    exact mem_hitsOf.2 ⟨t, hsub ht, sc, hsc, ha⟩
  have h2 : ∀ a ∈ hitsOf (on :: offs), a ∈ hitsOf (on :: offs') := by
    intro a ha
    obtain ⟨t, ht, sc, hsc, ha⟩ := mem_hitsOf.1 ha
    refine mem_hitsOf.2 ⟨t, ?_, sc, hsc, ha⟩
    rcases List.mem_cons.1 ht with rfl | ht
    · exact List.mem_cons_self
    · exact List.mem_cons_of_mem _ (hsub ht)
  rcases h with h | h
  · exact .inl fun a ha b hb => h a (h2 a ha) b (h2 b hb)
  · exact .inr ⟨h.scans, fun a ha => h.targets a (h1 a ha)⟩

/-- **C134 (part).** For a cadence without NaN that is timed, or on whose hits the distance is
symmetric: the events are exactly the events of the first target alone, in the same order, without
those that have a hit of another target within an average distance of 50. Neither which hits form an
event nor what is reported for it depends on the other targets. -/
theorem C134_off_targets_veto_partial (o : EvOps F D) {oF : FOrd F} {oD : FOrd D} (hF : oF.Lawful)
    (hD : oD.Lawful) (tF : oF.Total) (tD : oD.Total) (hcong : Congr o oF oD)
    (m : OrdMap (Pair F D) F) (hm : m.Sound (comp oF oD))
    (hbig : o.ltF o.fltMax o.fifty = false) (on : List (ScanHits F D))
    (offs : List (List (ScanHits F D))) (hst : Steady o oD on offs) :
    ∃ es, eventSearch o m [on] = .ok es ∧
      eventSearch o m (on :: offs) = .ok (es.filter (Clear o offs)) := by
  obtain ⟨es, _, he, -, -⟩ := fromScans_uses (dist := plain (distanceFunc o)) hbig [] 0 on
    (on.map ScanHits.hits) ()
  refine ⟨es, ?_, eventSearch_plain o hF hD tF tD hcong m hm on offs hst he⟩
  rw [eventSearch_plain o hF hD tF tD hcong m hm on [] (hst.mono (by simp)) he,
    List.filter_eq_self.2 (by simp [Clear])]

/-- **C134 (part): more OFF targets, fewer events.** Under the same hypotheses, adding targets to a
cadence, anywhere after the first, only removes events. -/
theorem C134_more_off_targets_partial (o : EvOps F D) {oF : FOrd F} {oD : FOrd D} (hF : oF.Lawful)
    (hD : oD.Lawful) (tF : oF.Total) (tD : oD.Total) (hcong : Congr o oF oD)
    (m : OrdMap (Pair F D) F) (hm : m.Sound (comp oF oD))
    (hbig : o.ltF o.fltMax o.fifty = false) (on : List (ScanHits F D))
    (offs offs' : List (List (ScanHits F D))) (hsub : offs ⊆ offs') (hst : Steady o oD on offs') :
    ∃ es es', eventSearch o m (on :: offs) = .ok es ∧ eventSearch o m (on :: offs') = .ok es' ∧
      List.Sublist es' es := by
  obtain ⟨es, h1, h2⟩ := C134_off_targets_veto_partial o hF hD tF tD hcong m hm hbig on offs
    (hst.mono hsub)
  obtain ⟨es', h1', h2'⟩ := C134_off_targets_veto_partial o hF hD tF tD hcong m hm hbig on offs' hst
  rw [h1] at h1'
  cases h1'
  refine ⟨_, _, h2, h2', ?_⟩
  have himp : ∀ e : Event F D, Clear o offs' e = true → Clear o offs e = true := by
    intro e he
    simp only [Clear, List.all_eq_true] at he ⊢
    exact fun t ht => he t (hsub ht)
  have : es.filter (Clear o offs') = (es.filter (Clear o offs)).filter (Clear o offs') := by
    rw [List.filter_filter]
    apply List.filter_congr
    intro e _
    cases hc : Clear o offs' e with
    | false => rfl
    | true => rw [himp e hc]; rfl
  rw [this]
  exact List.filter_sublist

/-- Hits of equal duration have a symmetric distance. -/
theorem steady_of_duration {on : List (ScanHits ℚ ℚ)} {offs : List (List (ScanHits ℚ ℚ))} {len : ℚ}
    (hdur : ∀ a ∈ hitsOf (on :: offs), a.duration = len) : Steady ideal ratOrd on offs :=
  .inl fun a ha b hb => ideal_symmetric a b ((hdur a ha).trans (hdur b hb).symm)

/-- Exact arithmetic meets the hypotheses, for every steady cadence. -/
theorem C134_exact (on : List (ScanHits ℚ ℚ)) (offs : List (List (ScanHits ℚ ℚ)))
    (hst : Steady ideal ratOrd on offs) :
    ∃ es, eventSearch ideal exMap [on] = .ok es ∧
      eventSearch ideal exMap (on :: offs) = .ok (es.filter (Clear ideal offs)) :=
  C134_off_targets_veto_partial ideal ratOrd_lawful ratOrd_lawful ratOrd_total ratOrd_total
    ideal_congr exMap (listMap_sound _) ideal_lt.big on offs hst

/-- In the example the far OFF hit leaves the event in place and a close one removes it. -/
example : (∃ e, eventSearch ideal exMap exCadence = .ok [e]) ∧
    eventSearch ideal exMap (exCadence ++ [[⟨3 / 2, 300, [exHit 8400 129600 300 0 10]⟩]]) = .ok [] :=
  ⟨⟨_, exCadence_found.choose_spec.1⟩, by decide +kernel⟩

end Bliss.Event
