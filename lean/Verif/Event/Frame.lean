import Verif.Event.Veto
import Mathlib.Tactic.Ring
import Mathlib.Tactic.Linarith

/-!
# Events do not depend on the origin of time or frequency (C138), nor on how bright hits are (C139)

`event_search` compares hits by where they will be at a common time. Here: moving a whole cadence in
time or in frequency, or mirroring the band, moves the events with it and changes nothing else; and
which hits are grouped depends only on where they are and how they drift. In exact arithmetic, for
cadences in which the cache of distances does not show (`Steady`): no two scans start at the same
time, or all hits have the same duration.
-/

namespace Bliss.Event

open Bliss.Hit (Hit FOrd)
open Bliss.File (Event)

variable {F D : Type} {o : EvOps F D} {d : Hit F D → Hit F D → F} {g : Hit F D → Hit F D}

/-! ## The search without a cache commutes with what preserves distances -/

theorem lowest_map (hd : ∀ a b, d (g a) (g b) = d a b) (h : Hit F D) (ev : List (Hit F D)) (low : F) :
    lowest o (plain d) (g h) (ev.map g) low () = lowest o (plain d) h ev low () := by
  induction ev generalizing low with
  | nil => rfl
  | cons e es ih =>
    simp only [List.map_cons, lowest, plain, hd]
    exact ih _

theorem pickBest_map (hd : ∀ a b, d (g a) (g b) = d a b) (ev hits : List (Hit F D)) (i : Nat)
    (best : F) (at' : Option Nat) :
    pickBest o (plain d) (ev.map g) (hits.map g) i best at' () =
      pickBest o (plain d) ev hits i best at' () := by
  induction hits generalizing i best at' with
  | nil => rfl
  | cons h hs ih =>
    simp only [List.map_cons, pickBest, lowest_map hd]
    split
    · exact ih _ _ _
    · exact ih _ _ _

theorem matchScan_map (hd : ∀ a b, d (g a) (g b) = d a b) {ev hits ev' hits' : List (Hit F D)}
    {u : Unit} (h : matchScan o (plain d) ev hits () = .ok (ev', hits', u)) :
    matchScan o (plain d) (ev.map g) (hits.map g) () = .ok (ev'.map g, hits'.map g, u) := by
  unfold matchScan at h ⊢
  simp only [] at h ⊢
  rw [pickBest_map hd]
  generalize pickBest o (plain d) ev hits 0 o.fltMax none () = r at h
  by_cases hl : o.ltF r.1 o.fifty = true
  · rw [if_pos hl] at h ⊢
    cases hr : r.2.1 with
    | none => rw [hr] at h; cases h
    | some i =>
      rw [hr] at h
      simp only [List.getElem?_map] at h ⊢
      cases hi : hits[i]? with
      | none => rw [hi] at h; cases h
      | some x =>
        rw [hi] at h
        simp only [Outcome.ok.injEq, Prod.mk.injEq, Option.map_some] at h ⊢
        obtain ⟨rfl, rfl, -⟩ := h
        exact ⟨by simp, List.eraseIdx_map .., trivial⟩
  · rw [if_neg hl] at h ⊢
    simp only [Outcome.ok.injEq, Prod.mk.injEq] at h ⊢
    obtain ⟨rfl, rfl, -⟩ := h
    exact ⟨rfl, rfl, trivial⟩

theorem extend_map (hd : ∀ a b, d (g a) (g b) = d a b) {ev ev' : List (Hit F D)}
    {rest rest' : List (List (Hit F D))} {u : Unit}
    (h : extend o (plain d) ev rest () = .ok (ev', rest', u)) :
    extend o (plain d) (ev.map g) (rest.map (List.map g)) () =
      .ok (ev'.map g, rest'.map (List.map g), u) := by
  induction rest generalizing ev ev' rest' u with
  | nil =>
    simp only [extend, Outcome.ok.injEq, Prod.mk.injEq, List.map_nil] at h ⊢
    obtain ⟨rfl, rfl, -⟩ := h
    exact ⟨rfl, rfl, trivial⟩
  | cons hits rest ih =>
    simp only [extend, List.map_cons] at h ⊢
    cases hm : matchScan o (plain d) ev hits () with
    | throws e => rw [hm] at h; cases h
    | ub => rw [hm] at h; cases h
    | ok r =>
      obtain ⟨ev1, hits1, u1⟩ := r
      rw [hm] at h
      simp only [Outcome.bind_ok] at h
      rw [matchScan_map hd hm]
      simp only [Outcome.bind_ok]
      cases he : extend o (plain d) ev1 rest u1 with
      | throws e => rw [he] at h; cases h
      | ub => rw [he] at h; cases h
      | ok r =>
        obtain ⟨ev2, rest2, u2⟩ := r
        rw [he] at h
        simp only [Outcome.bind_ok, Outcome.pure_eq, Outcome.ok.injEq, Prod.mk.injEq] at h
        obtain ⟨rfl, rfl, -⟩ := h
        rw [ih he]
        rfl

/-- What an event was made from: the scan of its first hit, that hit, and all its hits. -/
abbrev Origin (F D : Type) := ScanHits F D × Hit F D × List (Hit F D)

/-- The event reported for an origin. -/
def Origin.event (o : EvOps F D) (t : Origin F D) : Event F D := mkEvent o t.1 t.2.1 t.2.2

/-- The origin seen through `g` and `gs`. -/
def Origin.via (g : Hit F D → Hit F D) (gs : ScanHits F D → ScanHits F D) (t : Origin F D) :
    Origin F D := (gs t.1, g t.2.1, t.2.2.map g)

theorem fromScan_map (hd : ∀ a b, d (g a) (g b) = d a b) (gs : ScanHits F D → ScanHits F D)
    (sc : ScanHits F D) {hs : List (Hit F D)} {rest rest' : List (List (Hit F D))}
    {es : List (Event F D)} {u : Unit}
    (h : fromScan o (plain d) [] sc hs rest () = .ok (es, rest', u)) :
    ∃ ts : List (Origin F D), es = ts.map (Origin.event o) ∧
      (∀ t ∈ ts, t.1 = sc) ∧
      fromScan o (plain d) [] (gs sc) (hs.map g) (rest.map (List.map g)) () =
        .ok (ts.map fun t => (t.via g gs).event o, rest'.map (List.map g), u) := by
  induction hs generalizing rest es rest' u with
  | nil =>
    simp only [fromScan, Outcome.ok.injEq, Prod.mk.injEq] at h
    obtain ⟨rfl, rfl, -⟩ := h
    exact ⟨[], rfl, by simp, rfl⟩
  | cons x hs ih =>
    simp only [fromScan, List.map_cons] at h ⊢
    cases he : extend o (plain d) [x] rest () with
    | throws e => rw [he] at h; cases h
    | ub => rw [he] at h; cases h
    | ok r =>
      obtain ⟨ev, rest1, u1⟩ := r
      rw [he] at h
      simp only [Outcome.bind_ok, timesInOff] at h
      have he' := extend_map hd he
      simp only [List.map_cons, List.map_nil] at he'
      rw [he']
      simp only [Outcome.bind_ok, timesInOff]
      cases hf : fromScan o (plain d) [] sc hs rest1 u1 with
      | throws e => rw [hf] at h; cases h
      | ub => rw [hf] at h; cases h
      | ok r =>
        obtain ⟨es2, rest2, u2⟩ := r
        rw [hf] at h
        simp only [Outcome.bind_ok, Outcome.pure_eq, Outcome.ok.injEq, Prod.mk.injEq] at h
        obtain ⟨rfl, rfl, -⟩ := h
        obtain ⟨ts, rfl, h2, h3⟩ := ih hf
        rw [h3]
        simp only [Outcome.bind_ok, Outcome.pure_eq, List.length_map]
        by_cases h1 : ev.length > 1
        · refine ⟨(sc, x, ev) :: ts, ?_, ?_, ?_⟩
          · rw [if_pos ⟨h1, trivial⟩]; rfl
          · intro t ht
            rcases List.mem_cons.1 ht with rfl | ht
            · rfl
            · exact h2 t ht
          · rw [if_pos ⟨h1, trivial⟩]; rfl
        · exact ⟨ts, by rw [if_neg (fun hh => h1 hh.1)], h2, by rw [if_neg (fun hh => h1 hh.1)]⟩

theorem fromScans_map (hd : ∀ a b, d (g a) (g b) = d a b) (gs : ScanHits F D → ScanHits F D)
    {scs : List (ScanHits F D)} {hits : List (List (Hit F D))} {es : List (Event F D)}
    (h : fromScans o (plain d) [] scs hits () = .ok es) :
    ∃ ts : List (Origin F D), es = ts.map (Origin.event o) ∧ (∀ t ∈ ts, t.1 ∈ scs) ∧
      fromScans o (plain d) [] (scs.map gs) (hits.map (List.map g)) () =
        .ok (ts.map fun t => (t.via g gs).event o) := by
  induction scs generalizing hits es with
  | nil =>
    simp only [fromScans, Outcome.ok.injEq] at h
    subst h
    exact ⟨[], rfl, by simp, rfl⟩
  | cons sc scs ih =>
    cases hits with
    | nil =>
      simp only [fromScans, Outcome.ok.injEq] at h
      subst h
      exact ⟨[], rfl, by simp, rfl⟩
    | cons l rest =>
      simp only [fromScans, List.map_cons] at h ⊢
      cases hf : fromScan o (plain d) [] sc l rest () with
      | throws e => rw [hf] at h; cases h
      | ub => rw [hf] at h; cases h
      | ok r =>
        obtain ⟨es1, rest1, u1⟩ := r
        rw [hf] at h
        simp only [Outcome.bind_ok] at h
        obtain ⟨ts1, rfl, g2, g3⟩ := fromScan_map hd gs sc hf
        cases hs : fromScans o (plain d) [] scs rest1 u1 with
        | throws e => rw [hs] at h; cases h
        | ub => rw [hs] at h; cases h
        | ok es2 =>
          rw [hs] at h
          simp only [Outcome.bind_ok, Outcome.pure_eq, Outcome.ok.injEq] at h
          subst h
          obtain ⟨ts2, rfl, k2, k3⟩ := ih hs
          rw [g3]
          simp only [Outcome.bind_ok]
          rw [k3]
          refine ⟨ts1 ++ ts2, by simp, ?_, by simp⟩
          intro t ht
          rcases List.mem_append.1 ht with ht | ht
          · rw [g2 t ht]; exact List.mem_cons_self
          · exact List.mem_cons_of_mem _ (k2 t ht)

theorem closeTo_map (hd : ∀ a b, distanceFunc o (g a) (g b) = distanceFunc o a b)
    (ev : List (Hit F D)) (off : Hit F D) : CloseTo o (ev.map g) (g off) = CloseTo o ev off := by
  unfold CloseTo
  rw [List.foldl_map, List.length_map]
  simp only [hd]

/-- Every scan of the cadence seen through `gs`. -/
def viaAll (gs : ScanHits F D → ScanHits F D) (cadence : List (List (ScanHits F D))) :
    List (List (ScanHits F D)) := cadence.map (List.map gs)

theorem mem_hitsOf_viaAll (gs : ScanHits F D → ScanHits F D) (hgs : ∀ sc, (gs sc).hits = sc.hits.map g)
    (cadence : List (List (ScanHits F D))) {a : Hit F D} (ha : a ∈ hitsOf (viaAll gs cadence)) :
    ∃ b ∈ hitsOf cadence, a = g b := by
  obtain ⟨sc, hsc, ha⟩ := List.mem_flatMap.1 ha
  obtain ⟨t, ht, hsc⟩ := List.mem_flatten.1 hsc
  obtain ⟨t', ht', rfl⟩ := List.mem_map.1 ht
  obtain ⟨sc', hsc', rfl⟩ := List.mem_map.1 hsc
  rw [hgs] at ha
  obtain ⟨b, hb, rfl⟩ := List.mem_map.1 ha
  exact ⟨b, List.mem_flatMap.2 ⟨sc', List.mem_flatten.2 ⟨t', ht', hsc'⟩, hb⟩, rfl⟩

theorem Steady.via {oD : FOrd D} (hd : ∀ a b, distanceFunc o (g a) (g b) = distanceFunc o a b)
    (gs : ScanHits F D → ScanHits F D) (hgs : ∀ sc, (gs sc).hits = sc.hits.map g)
    (hgt : ∀ a b, oD.eq (g a).startTime (g b).startTime = oD.eq a.startTime b.startTime)
    {on : List (ScanHits F D)} {offs : List (List (ScanHits F D))} (h : Steady o oD on offs) :
    Steady o oD (on.map gs) (offs.map (List.map gs)) := by
  rcases h with h | h
  · refine .inl fun a ha b hb => ?_
    obtain ⟨a', ha', rfl⟩ := mem_hitsOf_viaAll gs hgs (on :: offs) ha
    obtain ⟨b', hb', rfl⟩ := mem_hitsOf_viaAll gs hgs (on :: offs) hb
    rw [hd, hd, h a' ha' b' hb']
  · refine .inr ⟨?_, fun a ha b hb => ?_⟩
    · rw [List.pairwise_map]
      refine h.scans.imp fun hs a ha b hb => ?_
      rw [hgs] at ha hb
      obtain ⟨a', ha', rfl⟩ := List.mem_map.1 ha
      obtain ⟨b', hb', rfl⟩ := List.mem_map.1 hb
      rw [hgt]; exact hs a' ha' b' hb'
    · obtain ⟨a', ha', rfl⟩ := mem_hitsOf_viaAll gs hgs offs ha
      obtain ⟨b', hb', rfl⟩ := mem_hitsOf_viaAll gs hgs [on] hb
      rw [hgt]; exact h.targets a' ha' b' hb'

/-- The search of a cadence seen through a transformation that preserves all distances. -/
theorem eventSearch_via (o : EvOps F D) {oF : FOrd F} {oD : FOrd D} (hF : oF.Lawful)
    (hD : oD.Lawful) (tF : oF.Total) (tD : oD.Total) (hcong : Congr o oF oD)
    (m : OrdMap (Pair F D) F) (hm : m.Sound (comp oF oD))
    (hbig : o.ltF o.fltMax o.fifty = false)
    (hd : ∀ a b, distanceFunc o (g a) (g b) = distanceFunc o a b)
    (gs : ScanHits F D → ScanHits F D) (hgs : ∀ sc, (gs sc).hits = sc.hits.map g)
    (hgt : ∀ a b, oD.eq (g a).startTime (g b).startTime = oD.eq a.startTime b.startTime)
    (on : List (ScanHits F D)) (offs : List (List (ScanHits F D))) (hst : Steady o oD on offs) :
    ∃ ts : List (Origin F D), (∀ t ∈ ts, t.1 ∈ on) ∧
      eventSearch o m (on :: offs) = .ok (ts.map (Origin.event o)) ∧
      eventSearch o m (viaAll gs (on :: offs)) = .ok (ts.map fun t => (t.via g gs).event o) := by
  obtain ⟨es, _, he, -, -⟩ := fromScans_uses (dist := plain (distanceFunc o)) hbig [] 0 on
    (on.map ScanHits.hits) ()
  obtain ⟨ts, rfl, h2, h3⟩ := fromScans_map hd gs he
  have e1 := eventSearch_plain o hF hD tF tD hcong m hm on offs hst he
  have hmap : (on.map ScanHits.hits).map (List.map g) = (on.map gs).map ScanHits.hits := by
    simp [hgs]
  rw [hmap] at h3
  have e2 := eventSearch_plain o hF hD tF tD hcong m hm _ _ (hst.via hd gs hgs hgt) h3
  refine ⟨ts.filter (fun t => Clear o offs (t.event o)), ?_, ?_, ?_⟩
  · exact fun t ht => h2 t (List.mem_of_mem_filter ht)
  · rw [e1, List.filter_map]; rfl
  · show eventSearch o m (on.map gs :: offs.map (List.map gs)) = _
    rw [e2, List.filter_map]
    congr 2
    apply List.filter_congr
    intro t _
    simp only [Function.comp, Clear, List.all_map]
    simp only [Function.comp_def, List.all_map, hgs]
    have : ((t.via g gs).event o).hits = (t.event o).hits.map g := rfl
    simp only [this, closeTo_map hd]

/-! ## C138: moving the origin of time and frequency -/

/-- The hit, `τ` seconds later and `φ` MHz higher. -/
def moveHit (τ φ : ℚ) (h : Hit ℚ ℚ) : Hit ℚ ℚ :=
  { h with startTime := h.startTime + τ, startFreqMHz := h.startFreqMHz + φ }

/-- The scan, `τ` seconds later and `φ` MHz higher; scans give their start in days. -/
def moveScan (τ φ : ℚ) (sc : ScanHits ℚ ℚ) : ScanHits ℚ ℚ :=
  { tstart := sc.tstart + τ / 86400, duration := sc.duration, hits := sc.hits.map (moveHit τ φ) }

/-- The event, `τ` seconds later and `φ` MHz higher; events give their frequency in Hz. -/
def moveEvent (τ φ : ℚ) (e : Event ℚ ℚ) : Event ℚ ℚ :=
  { e with
    hits := e.hits.map (moveHit τ φ)
    startingFrequency := e.startingFrequency + φ * 1000000
    startSeconds := e.startSeconds + τ
    endSeconds := e.endSeconds + τ }

theorem ideal_min_add (a b τ : ℚ) : ideal.min (a + τ) (b + τ) = ideal.min a b + τ := by
  simp only [ideal, add_lt_add_iff_right]
  split <;> rfl

theorem ideal_max_add (a b τ : ℚ) : ideal.max (a + τ) (b + τ) = ideal.max a b + τ := by
  simp only [ideal, add_lt_add_iff_right]
  split <;> rfl

theorem distance_move (τ φ : ℚ) (a b : Hit ℚ ℚ) :
    distanceFunc ideal (moveHit τ φ a) (moveHit τ φ b) = distanceFunc ideal a b := by
  have e1 : ideal.min (a.startTime + τ) (b.startTime + τ) = ideal.min a.startTime b.startTime + τ :=
    ideal_min_add _ _ _
  have e2 : ideal.max (ideal.add (a.startTime + τ) b.duration) (ideal.add (b.startTime + τ) b.duration)
      = ideal.max (ideal.add a.startTime b.duration) (ideal.add b.startTime b.duration) + τ := by
    rw [← ideal_max_add]
    congr 1 <;> (show (_ : ℚ) + τ + b.duration = _ + b.duration + τ; ring)
  have e3 : ∀ x y z : ℚ, ideal.sub (ideal.div (ideal.add (x + τ) (y + τ)) ideal.two) (z + τ) =
      ideal.sub (ideal.div (ideal.add x y) ideal.two) z := by
    intro x y z
    show (x + τ + (y + τ)) / 2 - (z + τ) = (x + y) / 2 - z
    ring
  have e4 : ∀ x y u v : ℚ, ideal.sub (ideal.add (ideal.mul (x + φ) ideal.million) u)
      (ideal.add (ideal.mul (y + φ) ideal.million) v) =
      ideal.sub (ideal.add (ideal.mul x ideal.million) u) (ideal.add (ideal.mul y ideal.million) v) := by
    intro x y u v
    show (x + φ) * 1000000 + u - ((y + φ) * 1000000 + v) = x * 1000000 + u - (y * 1000000 + v)
    ring
  simp only [distanceFunc, moveHit, e1, e2, e3, e4]

theorem foldl_map_congr {α β : Type} (f : β → α → β) (g : α → α) (h : ∀ acc a, f acc (g a) = f acc a)
    (l : List α) (b : β) : (l.map g).foldl f b = l.foldl f b := by
  rw [List.foldl_map]; simp only [h]

/-- **C138 (part).** In exact arithmetic, for a cadence that is timed or whose hits have one
duration (`Steady`): the events of the cadence observed `τ` seconds later and `φ` MHz higher are the
events of the cadence, in the same order, `τ` seconds later and `φ` MHz higher. -/
theorem C138_origin_partial (m : OrdMap (Pair ℚ ℚ) ℚ) (hm : m.Sound (comp ratOrd ratOrd))
    (τ φ : ℚ) (on : List (ScanHits ℚ ℚ)) (offs : List (List (ScanHits ℚ ℚ)))
    (hst : Steady ideal ratOrd on offs) :
    ∃ es, eventSearch ideal m (on :: offs) = .ok es ∧
      eventSearch ideal m ((on :: offs).map (List.map (moveScan τ φ))) =
        .ok (es.map (moveEvent τ φ)) := by
  obtain ⟨ts, -, h1, h2⟩ := eventSearch_via (g := moveHit τ φ) ideal ratOrd_lawful ratOrd_lawful
    ratOrd_total ratOrd_total ideal_congr m hm ideal_lt.big (distance_move τ φ) (moveScan τ φ)
    (fun _ => rfl) (fun a b => by simp [ratOrd, moveHit]) on offs hst
  refine ⟨_, h1, ?_⟩
  show eventSearch ideal m (viaAll (moveScan τ φ) (on :: offs)) = _
  rw [h2, List.map_map]
  congr 1
  apply List.map_congr_left
  intro t _
  obtain ⟨sc, x, ev⟩ := t
  simp only [Function.comp, Origin.via, Origin.event, mkEvent, moveEvent, List.length_map]
  rw [foldl_map_congr _ (moveHit τ φ) (fun _ _ => rfl), foldl_map_congr _ (moveHit τ φ) (fun _ _ => rfl),
    foldl_map_congr _ (moveHit τ φ) (fun _ _ => rfl), foldl_map_congr _ (moveHit τ φ) (fun _ _ => rfl)]
  have k1 : ideal.mul (moveHit τ φ x).startFreqMHz ideal.million =
      ideal.mul x.startFreqMHz ideal.million + φ * 1000000 := by
    show (x.startFreqMHz + φ) * 1000000 = x.startFreqMHz * 1000000 + φ * 1000000; ring
  have k2 : ideal.mul (moveScan τ φ sc).tstart (ideal.toD ideal.secPerDay) =
      ideal.mul sc.tstart (ideal.toD ideal.secPerDay) + τ := by
    show (sc.tstart + τ / 86400) * 86400 = sc.tstart * 86400 + τ; ring
  have k3 : ideal.add (ideal.mul sc.tstart (ideal.toD ideal.secPerDay) + τ) (moveScan τ φ sc).duration
      = ideal.add (ideal.mul sc.tstart (ideal.toD ideal.secPerDay)) sc.duration + τ := by
    show sc.tstart * 86400 + τ + sc.duration = sc.tstart * 86400 + sc.duration + τ; ring
  rw [k1, k2, k3]

/-- The example cadence, observed an hour later and 5 MHz lower. -/
example : ∃ e, eventSearch ideal exMap exCadence = .ok [e] ∧ e.hits.length = 2 ∧
    eventSearch ideal exMap (exCadence.map (List.map (moveScan 3600 (-5)))) =
      .ok [moveEvent 3600 (-5) e] := by
  obtain ⟨e, h1, h2, -⟩ := exCadence_found
  obtain ⟨es, h3, h4⟩ := C138_origin_partial exMap (listMap_sound _) 3600 (-5) exCadence.head!
    exCadence.tail (.inr ⟨by decide +kernel, by decide +kernel⟩)
  have : es = [e] := by
    have h5 : eventSearch ideal exMap exCadence = .ok es := h3
    rw [h1] at h5; cases h5; rfl
  subst this
  exact ⟨e, h1, h2, h4⟩

/-! ## C138: mirroring the band -/

/-- The hit at the frequency mirrored about `c` MHz. -/
def mirrorHit (c : ℚ) (h : Hit ℚ ℚ) : Hit ℚ ℚ :=
  { h with startFreqMHz := 2 * c - h.startFreqMHz, driftRate := -h.driftRate }

/-- The scan with its hits mirrored about `c` MHz. -/
def mirrorScan (c : ℚ) (sc : ScanHits ℚ ℚ) : ScanHits ℚ ℚ :=
  { sc with hits := sc.hits.map (mirrorHit c) }

/-- The event mirrored about `c` MHz. -/
def mirrorEvent (c : ℚ) (e : Event ℚ ℚ) : Event ℚ ℚ :=
  { e with
    hits := e.hits.map (mirrorHit c)
    startingFrequency := 2 * c * 1000000 - e.startingFrequency
    averageDrift := -e.averageDrift }

theorem ideal_abs_neg (x : ℚ) : ideal.abs (-x) = ideal.abs x := by
  show (if -x < 0 then - -x else -x) = if x < 0 then -x else x
  rcases lt_trichotomy x 0 with h | h | h
  · rw [if_neg (by linarith), if_pos h]
  · subst h; simp
  · rw [if_pos (by linarith), if_neg (by linarith)]; ring

theorem distance_mirror (c : ℚ) (a b : Hit ℚ ℚ) :
    distanceFunc ideal (mirrorHit c a) (mirrorHit c b) = distanceFunc ideal a b := by
  have e1 : ∀ x y : ℚ, ideal.abs (ideal.sub (-x) (-y)) = ideal.abs (ideal.sub x y) := by
    intro x y
    rw [← ideal_abs_neg]
    congr 1
    show -(-x - -y) = x - y; ring
  have e2 : ∀ x : ℚ, ideal.mul (-x) (-x) = ideal.mul x x := by
    intro x; show -x * -x = x * x; ring
  have e3 : ∀ x y p q s t : ℚ,
      ideal.abs (ideal.sub (ideal.add (ideal.mul (2 * c - x) ideal.million) (ideal.mul (-p) s))
        (ideal.add (ideal.mul (2 * c - y) ideal.million) (ideal.mul (-q) t))) =
      ideal.abs (ideal.sub (ideal.add (ideal.mul x ideal.million) (ideal.mul p s))
        (ideal.add (ideal.mul y ideal.million) (ideal.mul q t))) := by
    intro x y p q s t
    rw [← ideal_abs_neg]
    congr 1
    show -((2 * c - x) * 1000000 + -p * s - ((2 * c - y) * 1000000 + -q * t)) =
      x * 1000000 + p * s - (y * 1000000 + q * t)
    ring
  simp only [distanceFunc, mirrorHit, e1, e2, e3]

theorem foldl_add_neg (l : List (Hit ℚ ℚ)) (c b : ℚ) :
    (l.map (mirrorHit c)).foldl (fun acc h => ideal.add acc h.driftRate) (-b) =
      -(l.foldl (fun acc h => ideal.add acc h.driftRate) b) := by
  induction l generalizing b with
  | nil => rfl
  | cons x l ih =>
    simp only [List.map_cons, List.foldl_cons]
    rw [← ih]
    congr 1
    show -b + -x.driftRate = -(b + x.driftRate); ring

/-- **C138 (part).** In exact arithmetic, for a cadence that is timed or whose hits have one
duration (`Steady`): the events of the cadence with the band mirrored about `c` MHz (drifts change
sign) are the events of the cadence, in the same order, mirrored. No direction of drift is
preferred. -/
theorem C138_mirror_partial (m : OrdMap (Pair ℚ ℚ) ℚ) (hm : m.Sound (comp ratOrd ratOrd))
    (c : ℚ) (on : List (ScanHits ℚ ℚ)) (offs : List (List (ScanHits ℚ ℚ)))
    (hst : Steady ideal ratOrd on offs) :
    ∃ es, eventSearch ideal m (on :: offs) = .ok es ∧
      eventSearch ideal m ((on :: offs).map (List.map (mirrorScan c))) =
        .ok (es.map (mirrorEvent c)) := by
  obtain ⟨ts, -, h1, h2⟩ := eventSearch_via (g := mirrorHit c) ideal ratOrd_lawful ratOrd_lawful
    ratOrd_total ratOrd_total ideal_congr m hm ideal_lt.big (distance_mirror c) (mirrorScan c)
    (fun _ => rfl) (fun _ _ => rfl) on offs hst
  refine ⟨_, h1, ?_⟩
  show eventSearch ideal m (viaAll (mirrorScan c) (on :: offs)) = _
  rw [h2, List.map_map]
  congr 1
  apply List.map_congr_left
  intro t _
  obtain ⟨sc, x, ev⟩ := t
  simp only [Function.comp, Origin.via, Origin.event, mkEvent, mirrorEvent, List.length_map]
  have k0 := foldl_add_neg ev c 0
  rw [neg_zero] at k0
  have k0' : (ev.map (mirrorHit c)).foldl (fun acc h => ideal.add acc h.driftRate) ideal.zeroD =
      -(ev.foldl (fun acc h => ideal.add acc h.driftRate) ideal.zeroD) := k0
  rw [k0', foldl_map_congr _ (mirrorHit c) (fun _ _ => rfl),
    foldl_map_congr _ (mirrorHit c) (fun _ _ => rfl), foldl_map_congr _ (mirrorHit c) (fun _ _ => rfl)]
  have k1 : ideal.mul (mirrorHit c x).startFreqMHz ideal.million =
      2 * c * 1000000 - ideal.mul x.startFreqMHz ideal.million := by
    show (2 * c - x.startFreqMHz) * 1000000 = 2 * c * 1000000 - x.startFreqMHz * 1000000; ring
  have k2 : ∀ y z : ℚ, ideal.div (-y) z = -ideal.div y z := by
    intro y z; show -y / z = -(y / z); ring
  rw [k1, k2]
  rfl

/-- The example cadence mirrored about 8000 MHz. -/
example : ∃ e, eventSearch ideal exMap exCadence = .ok [e] ∧ e.hits.length = 2 ∧
    eventSearch ideal exMap (exCadence.map (List.map (mirrorScan 8000))) =
      .ok [mirrorEvent 8000 e] := by
  obtain ⟨e, h1, h2, -⟩ := exCadence_found
  obtain ⟨es, h3, h4⟩ := C138_mirror_partial exMap (listMap_sound _) 8000 exCadence.head!
    exCadence.tail (steady_of_duration (len := 300) (by decide +kernel))
  have : es = [e] := by
    have h5 : eventSearch ideal exMap exCadence = .ok es := h3
    rw [h1] at h5; cases h5; rfl
  subst this
  exact ⟨e, h1, h2, h4⟩

/-! ## C139: which hits are grouped -/

/-- `g` leaves a hit where it is: its start, its duration and its drift. Brightness, width, indices,
flags and channel may change. -/
def KeepsPlace (g : Hit F D → Hit F D) : Prop :=
  ∀ h, (g h).startFreqMHz = h.startFreqMHz ∧ (g h).startTime = h.startTime ∧
    (g h).duration = h.duration ∧ (g h).driftRate = h.driftRate

/-- **C139 (part).** In any arithmetic without NaN in which the weight of the SNR difference, 0, makes
every difference vanish, and for every steady cadence: which hits are grouped into events, and when
and where these events start and how they drift, depends only on where the hits are and how they
drift. SNR, power, bandwidth, indices and flags of hits have no influence: whatever `g` does to them,
the events are made from the same hits. -/
theorem C139_only_place_partial (o : EvOps F D) {oF : FOrd F} {oD : FOrd D} (hF : oF.Lawful)
    (hD : oD.Lawful) (tF : oF.Total) (tD : oD.Total) (hcong : Congr o oF oD)
    (m : OrdMap (Pair F D) F) (hm : m.Sound (comp oF oD))
    (hbig : o.ltF o.fltMax o.fifty = false) (hw : ∀ x y, o.mulF o.wSnr x = o.mulF o.wSnr y)
    (g : Hit F D → Hit F D) (hg : KeepsPlace g) (on : List (ScanHits F D))
    (offs : List (List (ScanHits F D))) (hst : Steady o oD on offs) :
    ∃ es es', eventSearch o m (on :: offs) = .ok es ∧
      eventSearch o m ((on :: offs).map (List.map fun sc => { sc with hits := sc.hits.map g })) =
        .ok es' ∧
      List.Forall₂ (fun e e' => e'.hits = e.hits.map g ∧
        e'.startingFrequency = e.startingFrequency ∧ e'.averageDrift = e.averageDrift ∧
        e'.startSeconds = e.startSeconds ∧ e'.endSeconds = e.endSeconds) es es' := by
  have hd : ∀ a b, distanceFunc o (g a) (g b) = distanceFunc o a b := by
    intro a b
    obtain ⟨a1, a2, -, a4⟩ := hg a
    obtain ⟨b1, b2, b3, b4⟩ := hg b
    have e : ∀ x : F, o.toD (o.mulF o.wSnr x) = o.toD (o.mulF o.wSnr o.zeroF) := fun x => by
      rw [hw x o.zeroF]
    simp only [distanceFunc, a1, a2, a4, b1, b2, b3, b4]
    rw [e, e (o.absF (o.subF a.snr b.snr))]
  obtain ⟨ts, -, h1, h2⟩ := eventSearch_via (g := g) o hF hD tF tD hcong m hm hbig hd
    (fun sc => { sc with hits := sc.hits.map g })
    (fun _ => rfl) (fun a b => by rw [(hg a).2.1, (hg b).2.1]) on offs hst
  refine ⟨_, _, h1, h2, ?_⟩
  rw [List.forall₂_map_left_iff, List.forall₂_map_right_iff, List.forall₂_same]
  intro t _
  refine ⟨rfl, ?_, ?_, rfl, rfl⟩
  · show o.mul (g t.2.1).startFreqMHz _ = o.mul t.2.1.startFreqMHz _
    rw [(hg _).1]
  · show o.div (((t.2.2.map g)).foldl (fun acc h => o.add acc h.driftRate) o.zeroD)
        (o.natD (t.2.2.map g).length) =
      o.div (t.2.2.foldl (fun acc h => o.add acc h.driftRate) o.zeroD)
        (o.natD t.2.2.length)
    rw [foldl_map_congr _ g (fun acc a => by rw [(hg a).2.2.2]), List.length_map]

/-- Hits of the example cadence a thousand times fainter still form the event. -/
example : ∃ es', eventSearch ideal exMap
      (exCadence.map (List.map fun sc => { sc with
        hits := sc.hits.map fun h => { h with snr := h.snr / 1000, power := h.power / 1000 } })) =
      .ok es' ∧ es'.length = 1 := by
  obtain ⟨e, h1, -, -⟩ := exCadence_found
  obtain ⟨es, es', h3, h4, h5⟩ := C139_only_place_partial ideal ratOrd_lawful ratOrd_lawful
    ratOrd_total ratOrd_total ideal_congr exMap (listMap_sound _) ideal_lt.big
    (fun x y => (zero_mul x).trans (zero_mul y).symm)
    (fun h => { h with snr := h.snr / 1000, power := h.power / 1000 })
    (fun h => ⟨rfl, rfl, rfl, rfl⟩) exCadence.head!
    exCadence.tail (steady_of_duration (len := 300) (by decide +kernel))
  refine ⟨es', h4, ?_⟩
  have h6 : eventSearch ideal exMap exCadence = .ok es := h3
  rw [h1] at h6; cases h6
  exact h5.length_eq.symm

end Bliss.Event
