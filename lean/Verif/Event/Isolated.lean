import Verif.Event.Frame
import Mathlib.Data.List.Perm.Basic
import Mathlib.Tactic.Linarith
import Mathlib.Tactic.Positivity
import Mathlib.Tactic.GCongr

/-!
# C141, C142: a signal seen only on target, and how far apart its measurements may lie

A signal is given as a predicate on hits. It is isolated when its hits are within a distance of 50 of
each other and no other hit of the target is within a distance of 50 of one of them. The search then
reports it as exactly one event, of exactly its hits.
-/

namespace Bliss.Event
open Bliss.Hit (Hit FOrd)
open Bliss.File (Event)

variable {F D C : Type} {o : EvOps F D} {H : Hit F D → Prop} {d : Hit F D → Hit F D → F}
  {dist : C → Hit F D → Hit F D → F × C} {Inv : C → Prop} {P : Hit F D → Hit F D → F → Prop}
  {sig : Hit F D → Bool}

/-- Hits of the signal are close to each other, and to no other hit; `P a b v` says that the distance
object may answer `v` for `a` and `b`. -/
structure Apart (o : EvOps F D) (H : Hit F D → Prop) (P : Hit F D → Hit F D → F → Prop)
    (sig : Hit F D → Bool) : Prop where
  together : ∀ a b v, H a → H b → sig a = true → sig b = true → P a b v → o.ltF v o.fifty = true
  apart : ∀ a b v, H a → H b → sig a ≠ sig b → P a b v → o.ltF v o.fifty = false

/-- Whatever the distance object answers, no hit of `offs` has an average distance below 50 from the
hits `S`. -/
def FarFrom (o : EvOps F D) (P : Hit F D → Hit F D → F → Prop) (offs S : List (Hit F D)) : Prop :=
  ∀ off ∈ offs, ∀ vs, List.Forall₂ (fun x v => P off x v) S vs →
    o.ltF (o.divF (vs.foldl o.addF o.zeroF) (o.natF S.length)) o.fifty = false

theorem plain_answers (d : Hit F D → Hit F D → F) :
    Answers (plain d) (fun _ => True) (fun a b v => v = d a b) :=
  ⟨fun _ _ _ _ => rfl, fun _ _ _ _ => trivial⟩

theorem filter_eraseIdx_not (l : List (Hit F D)) (i : Nat) (h : Hit F D) (hi : l[i]? = some h)
    (hs : sig h = false) : (l.eraseIdx i).filter sig = l.filter sig := by
  induction l generalizing i with
  | nil => simp at hi
  | cons a l ih =>
    cases i with
    | zero =>
      simp only [List.getElem?_cons_zero, Option.some.injEq] at hi
      subst hi
      simp [hs]
    | succ i =>
      simp only [List.getElem?_cons_succ] at hi
      simp only [List.eraseIdx_cons_succ, List.filter_cons, ih i hi]

theorem filter_eraseIdx_one (l : List (Hit F D)) (i : Nat) (h : Hit F D) (hi : l[i]? = some h)
    (hs : sig h = true) (h1 : (l.filter sig).length ≤ 1) :
    l.filter sig = [h] ∧ (l.eraseIdx i).filter sig = [] := by
  obtain ⟨hlt, rfl⟩ := List.getElem?_eq_some_iff.1 hi
  have hp := (List.getElem_cons_eraseIdx_perm hlt).filter sig
  rw [List.filter_cons, if_pos hs] at hp
  have hlen := hp.length_eq
  simp only [List.length_cons] at hlen
  have h0 : (l.eraseIdx i).filter sig = [] := List.eq_nil_of_length_eq_zero (by omega)
  rw [h0] at hp
  exact ⟨(List.perm_singleton.1 hp.symm), h0⟩

/-- What happens to one later scan. -/
theorem matchScan_sig (hl : LtLaws o) (hnt : NotLtTrans o) (han : Answers dist Inv P)
    (ha : Apart o H P sig) (b : Bool)
    (ev hits : List (Hit F D)) (hne : ev ≠ []) (hev : ∀ x ∈ ev, H x ∧ sig x = b)
    (hh : ∀ x ∈ hits, H x) (h1 : (hits.filter sig).length ≤ 1) (c : C) (hc : Inv c) :
    ∃ ev' hits' c', matchScan o dist ev hits c = .ok (ev', hits', c') ∧ Inv c' ∧ ev' ≠ [] ∧
      (∀ x ∈ ev', H x ∧ sig x = b) ∧ (∀ x ∈ hits', H x) ∧
      (b = false → hits'.filter sig = hits.filter sig) ∧
      (b = true → ev' = ev ++ hits.filter sig ∧ hits'.filter sig = []) := by
  rcases matchScan_closest hl hnt han ev hits c hc with
    ⟨c', h2, hc', hfar⟩ | ⟨i, h, c', e, best, hi, h2, hc', he, hp, hlt, -⟩
  · refine ⟨ev, hits, c', h2, hc', hne, hev, hh, fun _ => rfl, fun hb => ?_⟩
    have h0 : hits.filter sig = [] := by
      rw [List.filter_eq_nil_iff]
      intro x hx hs
      obtain ⟨e, he⟩ := List.exists_mem_of_ne_nil ev hne
      obtain ⟨v, hv, hv'⟩ := hfar x hx e he
      rw [ha.together e x v (hev e he).1 (hh x hx) ((hev e he).2.trans hb) hs hv] at hv'
      cases hv'
    simp [h0]
  · have hmem : h ∈ hits := List.mem_of_getElem? hi
    have hsame : sig h = b := by
      by_contra hn
      rw [ha.apart e h best (hev e he).1 (hh h hmem)
        (by rw [(hev e he).2]; exact fun q => hn q.symm) hp] at hlt
      cases hlt
    refine ⟨ev ++ [h], hits.eraseIdx i, c', h2, hc', by simp, ?_,
      fun x hx => hh x (List.mem_of_mem_eraseIdx hx), ?_, ?_⟩
    · intro x hx
      rcases List.mem_append.1 hx with hx | hx
      · exact hev x hx
      · rw [List.mem_singleton.1 hx]; exact ⟨hh h hmem, hsame⟩
    · rintro rfl
      exact filter_eraseIdx_not hits i h hi hsame
    · rintro rfl
      obtain ⟨q1, q2⟩ := filter_eraseIdx_one hits i h hi hsame h1
      rw [q1]
      exact ⟨rfl, q2⟩

theorem extend_sig (hl : LtLaws o) (hnt : NotLtTrans o) (han : Answers dist Inv P)
    (ha : Apart o H P sig) (b : Bool)
    (ev : List (Hit F D)) (rest : List (List (Hit F D))) (hne : ev ≠ [])
    (hev : ∀ x ∈ ev, H x ∧ sig x = b) (hh : ∀ l ∈ rest, ∀ x ∈ l, H x)
    (h1 : ∀ l ∈ rest, (l.filter sig).length ≤ 1) (c : C) (hc : Inv c) :
    ∃ ev' rest' c', extend o dist ev rest c = .ok (ev', rest', c') ∧ Inv c' ∧
      (∀ x ∈ ev', H x ∧ sig x = b) ∧ ((∀ l ∈ rest', ∀ x ∈ l, H x) ∧ rest'.length = rest.length) ∧
      (b = false → rest'.map (List.filter sig) = rest.map (List.filter sig)) ∧
      (b = true → ev' = ev ++ (rest.map (List.filter sig)).flatten ∧
        ∀ l ∈ rest', l.filter sig = []) := by
  induction rest generalizing ev c with
  | nil => exact ⟨ev, [], c, rfl, hc, hev, ⟨by simp, rfl⟩, fun _ => rfl, fun _ => by simp⟩
  | cons hits rest ih =>
    obtain ⟨ev1, hits1, c1, g1, gc, g2, g3, g4, g5, g6⟩ := matchScan_sig hl hnt han ha b ev hits hne hev
      (hh hits List.mem_cons_self) (h1 hits List.mem_cons_self) c hc
    obtain ⟨ev2, rest2, c2, k1, kc, k2, ⟨k3, k6⟩, k4, k5⟩ := ih ev1 g2 g3
      (fun l hl' => hh l (List.mem_cons_of_mem _ hl')) (fun l hl' => h1 l (List.mem_cons_of_mem _ hl'))
      c1 gc
    refine ⟨ev2, hits1 :: rest2, c2, ?_, kc, k2, ⟨?_, by simp [k6]⟩, ?_, ?_⟩
    · simp only [extend, g1, Outcome.bind_ok, k1, Outcome.pure_eq]
    · intro l hl'
      rcases List.mem_cons.1 hl' with rfl | hl'
      · exact g4
      · exact k3 l hl'
    · intro hb
      simp only [List.map_cons, g5 hb, k4 hb]
    · intro hb
      obtain ⟨q1, q2⟩ := g6 hb
      obtain ⟨q3, q4⟩ := k5 hb
      refine ⟨?_, ?_⟩
      · rw [q3, q1]; simp [List.append_assoc]
      · intro l hl'
        rcases List.mem_cons.1 hl' with rfl | hl'
        · exact q2
        · exact q4 l hl'

theorem sumDist_vals (han : Answers dist Inv P) (off : Hit F D) (ev : List (Hit F D)) (s : F) (c : C)
    (hc : Inv c) : ∃ vs, List.Forall₂ (fun x v => P off x v) ev vs ∧
      (sumDist o dist off ev s c).1 = vs.foldl o.addF s ∧ Inv (sumDist o dist off ev s c).2 := by
  induction ev generalizing s c with
  | nil => exact ⟨[], .nil, rfl, hc⟩
  | cons e ev ih =>
    obtain ⟨vs, h1, h2, h3⟩ := ih (o.addF s (dist c off e).1) (dist c off e).2 (han.inv c off e hc)
    exact ⟨(dist c off e).1 :: vs, .cons (han.val c off e hc) h1, h2, h3⟩

theorem timesInOff_far (han : Answers dist Inv P) (ev offs : List (Hit F D)) (n : Nat) (c : C)
    (hc : Inv c) : Inv (timesInOff o dist ev offs n c).2 ∧
      (FarFrom o P offs ev → (timesInOff o dist ev offs n c).1 = n) := by
  induction offs generalizing n c with
  | nil => exact ⟨hc, fun _ => rfl⟩
  | cons off offs ih =>
    obtain ⟨vs, h1, h2, h3⟩ := sumDist_vals (o := o) han off ev o.zeroF c hc
    simp only [timesInOff]
    refine ⟨(ih _ _ h3).1, fun hf => ?_⟩
    have h4 := hf off List.mem_cons_self vs h1
    rw [h2, h4, if_neg (by simp)]
    exact (ih n _ h3).2 (fun x hx => hf x (List.mem_cons_of_mem _ hx))

/-- The hit lists of the events that hold a hit of the signal. -/
def sigEvents (sig : Hit F D → Bool) (es : List (Event F D)) : List (List (Hit F D)) :=
  (es.map Event.hits).filter (fun l => l.any sig)

/-- The event of a signal with the hits `S`, if there are enough of them. -/
def wanted (S : List (Hit F D)) : List (List (Hit F D)) := if 1 < S.length then [S] else []

theorem sigEvents_append (a b : List (Event F D)) :
    sigEvents sig (a ++ b) = sigEvents sig a ++ sigEvents sig b := by
  simp [sigEvents]

theorem sigEvents_one_not (e : Event F D) (h : ∀ x ∈ e.hits, sig x = false) :
    sigEvents sig [e] = [] := by
  simp only [sigEvents, List.map_cons, List.map_nil, List.filter_eq_nil_iff, List.mem_singleton]
  rintro l rfl hl
  obtain ⟨x, hx, hs⟩ := List.any_eq_true.1 hl
  rw [h x hx] at hs; cases hs

theorem sigEvents_one (e : Event F D) (s : Hit F D) (hs : s ∈ e.hits) (h : sig s = true) :
    sigEvents sig [e] = [e.hits] := by
  have : e.hits.any sig = true := List.any_eq_true.2 ⟨s, hs, h⟩
  simp [sigEvents, this]

theorem fromScan_sig (hl : LtLaws o) (hnt : NotLtTrans o) (han : Answers dist Inv P)
    (ha : Apart o H P sig) (offs : List (Hit F D))
    (sc : ScanHits F D) (hits : List (Hit F D)) (rest : List (List (Hit F D)))
    (hhits : ∀ x ∈ hits, H x) (hh : ∀ l ∈ rest, ∀ x ∈ l, H x)
    (h0 : (hits.filter sig).length ≤ 1) (h1 : ∀ l ∈ rest, (l.filter sig).length ≤ 1)
    (hfar : hits.filter sig ≠ [] →
      FarFrom o P offs (hits.filter sig ++ (rest.map (List.filter sig)).flatten))
    (c : C) (hc : Inv c) :
    ∃ es rest' c', fromScan o dist offs sc hits rest c = .ok (es, rest', c') ∧ Inv c' ∧
      ((∀ l ∈ rest', ∀ x ∈ l, H x) ∧ rest'.length = rest.length) ∧
      (hits.filter sig = [] → sigEvents sig es = [] ∧
        rest'.map (List.filter sig) = rest.map (List.filter sig)) ∧
      (hits.filter sig ≠ [] →
        sigEvents sig es = wanted (hits.filter sig ++ (rest.map (List.filter sig)).flatten) ∧
        ∀ l ∈ rest', l.filter sig = []) := by
  induction hits generalizing rest c with
  | nil => exact ⟨[], rest, c, rfl, hc, ⟨hh, rfl⟩, fun _ => ⟨rfl, rfl⟩, fun h => absurd rfl h⟩
  | cons h hs ih =>
    obtain ⟨ev, rest1, c1, g1, gc, g2, ⟨g3, g6⟩, g4, g5⟩ := extend_sig hl hnt han ha (sig h) [h] rest
      (by simp)
      (by intro x hx; rw [List.mem_singleton.1 hx]; exact ⟨hhits h List.mem_cons_self, rfl⟩) hh h1 c hc
    obtain ⟨tc, tn⟩ := timesInOff_far (o := o) han ev offs 0 c1 gc
    have hh1 : ∀ l ∈ rest1, (l.filter sig).length ≤ 1 := by
      cases hb : sig h with
      | false =>
        intro l hl'
        have : l.filter sig ∈ rest.map (List.filter sig) := by
          rw [← g4 hb]; exact List.mem_map_of_mem hl'
        obtain ⟨l', hl2, e⟩ := List.mem_map.1 this
        rw [← e]; exact h1 l' hl2
      | true => intro l hl'; rw [(g5 hb).2 l hl']; simp
    have h0' : (hs.filter sig).length ≤ 1 := by
      refine Nat.le_trans ?_ h0
      rw [List.filter_cons]; split <;> simp
    have hfar' : hs.filter sig ≠ [] →
        FarFrom o P offs (hs.filter sig ++ (rest1.map (List.filter sig)).flatten) := by
      intro hne
      cases hb : sig h with
      | false =>
        have hf : (h :: hs).filter sig = hs.filter sig := by rw [List.filter_cons, hb]; simp
        rw [hf] at hfar
        rw [g4 hb]
        exact hfar hne
      | true =>
        have hf : (h :: hs).filter sig = h :: hs.filter sig := by rw [List.filter_cons, hb]; simp
        rw [hf, List.length_cons] at h0
        exact absurd (List.eq_nil_of_length_eq_zero (by omega)) hne
    generalize hT : timesInOff o dist ev offs 0 c1 = T at tc tn
    obtain ⟨n, c2⟩ := T
    obtain ⟨es, rest2, c3, k1, kc, ⟨k2, k5⟩, k3, k4⟩ := ih rest1
      (fun x hx => hhits x (List.mem_cons_of_mem _ hx)) g3 h0' hh1 hfar' c2 tc
    refine ⟨if ev.length > 1 ∧ n = 0 then mkEvent o sc h ev :: es else es, rest2, c3, ?_, kc,
      ⟨k2, k5.trans g6⟩, ?_, ?_⟩
    · simp only [fromScan, g1, Outcome.bind_ok, hT, k1, Outcome.pure_eq]
    · intro hnil
      rw [List.filter_cons] at hnil
      cases hb : sig h with
      | true => rw [hb] at hnil; simp at hnil
      | false =>
        rw [hb] at hnil
        simp only [Bool.false_eq_true, if_false] at hnil
        obtain ⟨q1, q2⟩ := k3 hnil
        refine ⟨?_, q2.trans (g4 hb)⟩
        split
        · rw [show mkEvent o sc h ev :: es = [mkEvent o sc h ev] ++ es from rfl, sigEvents_append,
            sigEvents_one_not _ (fun x hx => ((g2 x hx).2).trans hb), q1]
          rfl
        · exact q1
    · intro hne
      cases hb : sig h with
      | false =>
        have hf : (h :: hs).filter sig = hs.filter sig := by rw [List.filter_cons, hb]; simp
        rw [hf] at hne ⊢
        obtain ⟨q1, q2⟩ := k4 hne
        refine ⟨?_, q2⟩
        rw [g4 hb] at q1
        split
        · rw [show mkEvent o sc h ev :: es = [mkEvent o sc h ev] ++ es from rfl, sigEvents_append,
            sigEvents_one_not _ (fun x hx => ((g2 x hx).2).trans hb), q1]
          rfl
        · exact q1
      | true =>
        have hf : (h :: hs).filter sig = h :: hs.filter sig := by rw [List.filter_cons, hb]; simp
        rw [hf, List.length_cons] at h0
        have hs0 : hs.filter sig = [] := List.eq_nil_of_length_eq_zero (by omega)
        have hfar2 := hfar hne
        rw [hf, hs0] at hfar2 ⊢
        obtain ⟨q1, q2⟩ := k3 hs0
        obtain ⟨q3, q4⟩ := g5 hb
        rw [← q3] at hfar2
        have hn0 : n = 0 := tn hfar2
        constructor
        · rw [← q3]
          unfold wanted
          by_cases hlen : 1 < ev.length
          · rw [if_pos ⟨hlen, hn0⟩, if_pos hlen,
              show mkEvent o sc h ev :: es = [mkEvent o sc h ev] ++ es from rfl, sigEvents_append,
              sigEvents_one _ h (by show h ∈ ev; rw [q3]; simp) hb, q1]
            rfl
          · rw [if_neg (fun hh => hlen hh.1), if_neg hlen]
            exact q1
        · intro l hl'
          have : l.filter sig ∈ rest1.map (List.filter sig) := by
            rw [← q2]; exact List.mem_map_of_mem hl'
          obtain ⟨l', hl2, e⟩ := List.mem_map.1 this
          rw [← e]; exact q4 l' hl2

theorem fromScans_sig (hl : LtLaws o) (hnt : NotLtTrans o) (han : Answers dist Inv P)
    (ha : Apart o H P sig) (offs : List (Hit F D))
    (scs : List (ScanHits F D)) (rest : List (List (Hit F D))) (hlen : scs.length = rest.length)
    (hh : ∀ l ∈ rest, ∀ x ∈ l, H x) (h1 : ∀ l ∈ rest, (l.filter sig).length ≤ 1)
    (hfar : (rest.map (List.filter sig)).flatten ≠ [] →
      FarFrom o P offs (rest.map (List.filter sig)).flatten) (c : C) (hc : Inv c) :
    ∃ es, fromScans o dist offs scs rest c = .ok es ∧
      sigEvents sig es = wanted ((rest.map (List.filter sig)).flatten) := by
  induction scs generalizing rest c with
  | nil =>
    have : rest = [] := List.eq_nil_of_length_eq_zero hlen.symm
    subst this
    exact ⟨[], rfl, rfl⟩
  | cons sc scs ih =>
    cases rest with
    | nil => simp at hlen
    | cons hits rest =>
      simp only [List.map_cons, List.flatten_cons] at hfar
      obtain ⟨es, rest1, c1, g1, gc, ⟨g2, hlen1⟩, g3, g4⟩ := fromScan_sig hl hnt han ha offs sc hits rest
        (hh hits List.mem_cons_self) (fun l hl' => hh l (List.mem_cons_of_mem _ hl'))
        (h1 hits List.mem_cons_self) (fun l hl' => h1 l (List.mem_cons_of_mem _ hl'))
        (fun hne => hfar (fun h => hne (List.append_eq_nil_iff.1 h).1)) c hc
      by_cases hn : hits.filter sig = []
      · obtain ⟨q1, q2⟩ := g3 hn
        obtain ⟨es', k1, k2⟩ := ih rest1 (by simp only [List.length_cons] at hlen; omega) g2 (by
          intro l hl'
          have : l.filter sig ∈ rest.map (List.filter sig) := by
            rw [← q2]; exact List.mem_map_of_mem hl'
          obtain ⟨l', hl2, e⟩ := List.mem_map.1 this
          rw [← e]; exact h1 l' (List.mem_cons_of_mem _ hl2))
          (by rw [q2]; rw [hn] at hfar; exact hfar) c1 gc
        refine ⟨es ++ es', ?_, ?_⟩
        · simp only [fromScans, g1, Outcome.bind_ok, k1, Outcome.pure_eq]
        · rw [sigEvents_append, q1, k2, q2]
          simp [hn]
      · obtain ⟨q1, q2⟩ := g4 hn
        have h0 : (rest1.map (List.filter sig)).flatten = [] := by
          rw [List.flatten_eq_nil_iff]
          intro l hl'
          obtain ⟨l', hl2, e⟩ := List.mem_map.1 hl'
          rw [← e]; exact q2 l' hl2
        obtain ⟨es', k1, k2⟩ := ih rest1 (by simp only [List.length_cons] at hlen; omega) g2 (by
          intro l hl'; rw [q2 l hl']; simp) (fun h => absurd h0 h) c1 gc
        refine ⟨es ++ es', ?_, ?_⟩
        · simp only [fromScans, g1, Outcome.bind_ok, k1, Outcome.pure_eq]
        · rw [sigEvents_append, q1, k2, h0]
          simp [wanted]

/-! ## C141 -/

theorem filter_map_hits (q : List (Hit F D) → Bool) (g : Event F D → Bool)
    (hg : ∀ e, g e = q e.hits) (es : List (Event F D)) :
    ((es.filter g).map Event.hits) = (es.map Event.hits).filter q := by
  induction es with
  | nil => rfl
  | cons e es ih => simp only [List.filter_cons, List.map_cons, hg e]; split <;> simp [ih]

/-- **C141 (part).** Let a signal have at most one hit in each scan of the first target, all of them
within a distance of 50 of each other and of no other hit of that target. Then of all events that are
reported exactly one holds hits of the signal, and it consists of all of them and nothing else, in the
order of the scans; unless there are fewer than two, or a hit of another target is close to them: then
no event holds a hit of the signal. Neither other signals nor the order of the hits matter. -/
theorem C141_isolated_signal_partial (o : EvOps F D) {oF : FOrd F} {oD : FOrd D} (hF : oF.Lawful)
    (hD : oD.Lawful) (tF : oF.Total) (tD : oD.Total) (hcong : Congr o oF oD) (hl : LtLaws o)
    (hnt : NotLtTrans o) (m : OrdMap (Pair F D) F) (hm : m.Sound (comp oF oD))
    (on : List (ScanHits F D)) (offs : List (List (ScanHits F D)))
    (hst : Steady o oD on offs)
    (sig : Hit F D → Bool) (hone : ∀ sc ∈ on, (sc.hits.filter sig).length ≤ 1)
    (htog : ∀ a ∈ hitsOf [on], ∀ b ∈ hitsOf [on], sig a = true → sig b = true →
      o.ltF (distanceFunc o a b) o.fifty = true)
    (hapart : ∀ a ∈ hitsOf [on], ∀ b ∈ hitsOf [on], sig a ≠ sig b →
      o.ltF (distanceFunc o a b) o.fifty = false) :
    let S := on.flatMap fun sc => sc.hits.filter sig
    ∃ es, eventSearch o m (on :: offs) = .ok es ∧
      (es.map Event.hits).filter (fun l => l.any sig) =
        if 2 ≤ S.length ∧ (hitsOf offs).all (fun off => !CloseTo o S off) then [S] else [] := by
  intro S
  have hin : ∀ l ∈ on.map ScanHits.hits, ∀ x ∈ l, x ∈ hitsOf [on] := by
    intro l hl' x hx
    obtain ⟨sc, hsc, rfl⟩ := List.mem_map.1 hl'
    simp only [hitsOf, List.flatten_cons, List.flatten_nil, List.append_nil]
    exact List.mem_flatMap.2 ⟨sc, hsc, hx⟩
  obtain ⟨es, h1, h2⟩ := fromScans_sig (o := o) (H := (· ∈ hitsOf [on]))
    (sig := sig) hl hnt (plain_answers (distanceFunc o))
    ⟨fun a b v ha hb sa sb hv => by rw [hv]; exact htog a ha b hb sa sb,
      fun a b v ha hb hs hv => by rw [hv]; exact hapart a ha b hb hs⟩ [] on
    (on.map ScanHits.hits) (by simp) hin (by
      intro l hl'
      obtain ⟨sc, hsc, rfl⟩ := List.mem_map.1 hl'
      exact hone sc hsc) (fun _ off hoff => by cases hoff) () trivial
  refine ⟨_, eventSearch_plain o hF hD tF tD hcong m hm on offs hst h1, ?_⟩
  have hS : ((on.map ScanHits.hits).map (List.filter sig)).flatten = S := by
    rw [List.map_map]; rfl
  rw [hS] at h2
  let q : List (Hit F D) → Bool := fun l => (hitsOf offs).all (fun off => !CloseTo o l off)
  have hq : ∀ e, Clear o offs e = q e.hits := by
    intro e
    unfold Clear
    show _ = (offs.flatten.flatMap ScanHits.hits).all (fun off => !CloseTo o e.hits off)
    rw [Bool.eq_iff_iff]
    simp only [List.all_eq_true]
    constructor
    · intro h x hx
      obtain ⟨sc, hsc, hx⟩ := List.mem_flatMap.1 hx
      obtain ⟨t, ht, hsc⟩ := List.mem_flatten.1 hsc
      exact h t ht sc hsc x hx
    · intro h t ht sc hsc x hx
      exact h x (List.mem_flatMap.2 ⟨sc, List.mem_flatten.2 ⟨t, ht, hsc⟩, hx⟩)
  rw [filter_map_hits q _ hq, List.filter_filter]
  have hcomm : (es.map Event.hits).filter (fun l => (fun l => l.any sig) l && q l) =
      ((es.map Event.hits).filter (fun l => l.any sig)).filter q := by
    rw [List.filter_filter]
    exact List.filter_congr fun _ _ => Bool.and_comm _ _
  rw [hcomm]
  have h2' : (es.map Event.hits).filter (fun l => l.any sig) = wanted S := h2
  rw [h2']
  unfold wanted
  by_cases hlen : 1 < S.length
  · rw [if_pos hlen]
    by_cases hc : q S = true
    · rw [if_pos ⟨hlen, hc⟩]; simp [hc]
    · rw [if_neg (fun h => hc h.2)]; simp [hc]
  · rw [if_neg hlen, if_neg (fun h => hlen h.1)]; rfl

/-- **C141 (part): without symmetry.** The same for any distance, when hits of the signal are close in
either order of the arguments, other hits of the target are far in either order, and no choice of the
orders brings a hit of another target within an average distance of 50. -/
theorem C141_reported_partial (o : EvOps F D) {oF : FOrd F} {oD : FOrd D} (hF : oF.Lawful)
    (hD : oD.Lawful) (tF : oF.Total) (tD : oD.Total) (hcong : Congr o oF oD) (hl : LtLaws o)
    (hnt : NotLtTrans o) (m : OrdMap (Pair F D) F) (hm : m.Sound (comp oF oD))
    (on : List (ScanHits F D)) (offs : List (List (ScanHits F D)))
    (sig : Hit F D → Bool) (hone : ∀ sc ∈ on, (sc.hits.filter sig).length ≤ 1)
    (htog : ∀ a ∈ hitsOf [on], ∀ b ∈ hitsOf [on], sig a = true → sig b = true →
      o.ltF (distanceFunc o a b) o.fifty = true)
    (hapart : ∀ a ∈ hitsOf [on], ∀ b ∈ hitsOf [on], sig a ≠ sig b →
      o.ltF (distanceFunc o a b) o.fifty = false)
    (htwo : 2 ≤ (on.flatMap fun sc => sc.hits.filter sig).length)
    (hclear : ∀ off ∈ hitsOf offs, ∀ vs,
      List.Forall₂ (fun x v => v = distanceFunc o off x ∨ v = distanceFunc o x off)
        (on.flatMap fun sc => sc.hits.filter sig) vs →
      o.ltF (o.divF (vs.foldl o.addF o.zeroF)
        (o.natF (on.flatMap fun sc => sc.hits.filter sig).length)) o.fifty = false) :
    ∃ es, eventSearch o m (on :: offs) = .ok es ∧
      (es.map Event.hits).filter (fun l => l.any sig) =
        [on.flatMap fun sc => sc.hits.filter sig] := by
  have hin : ∀ l ∈ on.map ScanHits.hits, ∀ x ∈ l, x ∈ hitsOf [on] := by
    intro l hl' x hx
    obtain ⟨sc, hsc, rfl⟩ := List.mem_map.1 hl'
    simp only [hitsOf, List.flatten_cons, List.flatten_nil, List.append_nil]
    exact List.mem_flatMap.2 ⟨sc, hsc, hx⟩
  have hS : ((on.map ScanHits.hits).map (List.filter sig)).flatten =
      on.flatMap fun sc => sc.hits.filter sig := by
    rw [List.map_map]; rfl
  obtain ⟨es, h1, h2⟩ := fromScans_sig (o := o) (H := (· ∈ hitsOf [on])) (sig := sig) hl hnt
    (cachedDistance_answers o hF hD tF tD hcong m hm)
    ⟨fun a b v ha hb sa sb hv => by
        rcases hv with hv | hv <;> rw [hv]
        · exact htog a ha b hb sa sb
        · exact htog b hb a ha sb sa,
      fun a b v ha hb hs hv => by
        rcases hv with hv | hv <;> rw [hv]
        · exact hapart a ha b hb hs
        · exact hapart b hb a ha (Ne.symm hs)⟩ (hitsOf offs) on
    (on.map ScanHits.hits) (by simp) hin (by
      intro l hl'
      obtain ⟨sc, hsc, rfl⟩ := List.mem_map.1 hl'
      exact hone sc hsc) (by rw [hS]; exact fun _ => hclear) m.empty (cacheInv_empty o hm)
  rw [hS] at h2
  refine ⟨es, h1, ?_⟩
  have h2' : (es.map Event.hits).filter (fun l => l.any sig) =
      wanted (on.flatMap fun sc => sc.hits.filter sig) := h2
  rw [h2', wanted, if_pos (by omega)]

/-! ## C142: how far apart two measurements of a signal may lie -/

/-- Specification: the hit is a measurement, to within `δ` Hz and `ρ` Hz/s, of a signal that is at `f`
Hz at time 0 and drifts by `r` Hz/s. -/
structure Measures (f r δ ρ : ℚ) (h : Hit ℚ ℚ) : Prop where
  freq : |h.startFreqMHz * 1000000 - (f + r * h.startTime)| ≤ δ
  drift : |h.driftRate - r| ≤ ρ

theorem ideal_abs (x : ℚ) : ideal.abs x = |x| := by
  show (if x < 0 then -x else x) = |x|
  split
  · rw [abs_of_neg ‹_›]
  · rw [abs_of_nonneg (not_lt.1 ‹_›)]

/-- The distance in exact arithmetic of two hits: a hundredth of the difference of
the frequencies half way between the scans, and ten times the squared scaled difference of the
drifts. -/
theorem ideal_distance (a b : Hit ℚ ℚ) :
    distanceFunc ideal a b =
      1 / 100 * |(a.startFreqMHz * 1000000 - b.startFreqMHz * 1000000) +
        (a.driftRate * ((b.startTime - a.startTime + b.duration) / 2) -
          b.driftRate * ((a.startTime - b.startTime + b.duration) / 2))| +
      10 * (|a.driftRate - b.driftRate| /
        (1 / 100000000 + a.driftRate ^ 2 + b.driftRate ^ 2)) ^ 2 := by
  have hmm : ideal.add (ideal.max (ideal.add a.startTime b.duration) (ideal.add b.startTime b.duration))
      (ideal.min a.startTime b.startTime) = a.startTime + b.startTime + b.duration := by
    show (if a.startTime + b.duration < b.startTime + b.duration then b.startTime + b.duration
      else a.startTime + b.duration) + (if b.startTime < a.startTime then b.startTime else a.startTime) = _
    rcases lt_trichotomy a.startTime b.startTime with h | h | h
    · rw [if_pos (by linarith), if_neg (by linarith)]; ring
    · rw [h, if_neg (by linarith), if_neg (by linarith)]
      ring
    · rw [if_neg (by linarith), if_pos h]; ring
  unfold distanceFunc
  simp only [hmm, ideal_abs]
  show 1 / 100 * |_| + 10 * (_ / _ * (_ / _)) + 0 * _ = _
  have e1 : ∀ x y : ℚ, x = y → |x| = |y| := fun x y h => by rw [h]
  have : ideal.sub
        (ideal.add (ideal.mul a.startFreqMHz ideal.million)
          (ideal.mul a.driftRate (ideal.sub (ideal.div (a.startTime + b.startTime + b.duration) ideal.two)
            a.startTime)))
        (ideal.add (ideal.mul b.startFreqMHz ideal.million)
          (ideal.mul b.driftRate (ideal.sub (ideal.div (a.startTime + b.startTime + b.duration) ideal.two)
            b.startTime))) =
      (a.startFreqMHz * 1000000 - b.startFreqMHz * 1000000) +
        (a.driftRate * ((b.startTime - a.startTime + b.duration) / 2) -
          b.driftRate * ((a.startTime - b.startTime + b.duration) / 2)) := by
    show (a.startFreqMHz * 1000000 + a.driftRate *
        ((a.startTime + b.startTime + b.duration) / 2 - a.startTime)) -
      (b.startFreqMHz * 1000000 + b.driftRate *
        ((a.startTime + b.startTime + b.duration) / 2 - b.startTime)) = _
    ring
  rw [this]
  show _ + 10 * (|a.driftRate - b.driftRate| /
      (1 / 100000000 + a.driftRate * a.driftRate + b.driftRate * b.driftRate) *
      (|a.driftRate - b.driftRate| /
      (1 / 100000000 + a.driftRate * a.driftRate + b.driftRate * b.driftRate))) + 0 * _ = _
  rw [zero_mul, add_zero]
  ring

/-- **C142 (part): the distance of two measurements of one signal.** It is bounded by the errors of
the measurements, the time between them and the drift rates. -/
theorem C142_measurements_partial (f r δ ρ L : ℚ) (a b : Hit ℚ ℚ)
    (hlen : 0 ≤ b.duration) (hL : |a.startTime - b.startTime| + b.duration ≤ L)
    (ha : Measures f r δ ρ a) (hb : Measures f r δ ρ b) :
    distanceFunc ideal a b ≤ 1 / 100 * (2 * δ + ρ * L) +
      10 * (2 * ρ / (1 / 100000000 + a.driftRate ^ 2 + b.driftRate ^ 2)) ^ 2 := by
  rw [ideal_distance a b]
  have hρ : 0 ≤ ρ := (abs_nonneg _).trans ha.drift
  have hdd : |a.driftRate - b.driftRate| ≤ 2 * ρ := by
    have h1 := abs_le.1 ha.drift
    have h2 := abs_le.1 hb.drift
    rw [abs_le]; constructor <;> linarith [h1.1, h1.2, h2.1, h2.2]
  have hfreq : |(a.startFreqMHz * 1000000 - b.startFreqMHz * 1000000) +
        (a.driftRate * ((b.startTime - a.startTime + b.duration) / 2) -
          b.driftRate * ((a.startTime - b.startTime + b.duration) / 2))| ≤ 2 * δ + ρ * L := by
    have ht : |(b.startTime - a.startTime + b.duration) / 2| ≤ L / 2 := by
      have h1 := neg_abs_le (a.startTime - b.startTime)
      have h2 := le_abs_self (a.startTime - b.startTime)
      rw [abs_le]; constructor <;> linarith
    have ht' : |(a.startTime - b.startTime + b.duration) / 2| ≤ L / 2 := by
      have h1 := neg_abs_le (a.startTime - b.startTime)
      have h2 := le_abs_self (a.startTime - b.startTime)
      rw [abs_le]; constructor <;> linarith
    have hL0 : 0 ≤ L / 2 := (abs_nonneg _).trans ht
    have m1 : |(a.driftRate - r) * ((b.startTime - a.startTime + b.duration) / 2)| ≤ ρ * (L / 2) := by
      rw [abs_mul]; exact mul_le_mul ha.drift ht (abs_nonneg _) hρ
    have m2 : |(b.driftRate - r) * ((a.startTime - b.startTime + b.duration) / 2)| ≤ ρ * (L / 2) := by
      rw [abs_mul]; exact mul_le_mul hb.drift ht' (abs_nonneg _) hρ
    have e : (a.startFreqMHz * 1000000 - b.startFreqMHz * 1000000) +
        (a.driftRate * ((b.startTime - a.startTime + b.duration) / 2) -
          b.driftRate * ((a.startTime - b.startTime + b.duration) / 2)) =
        (a.startFreqMHz * 1000000 - (f + r * a.startTime)) -
        (b.startFreqMHz * 1000000 - (f + r * b.startTime)) +
        ((a.driftRate - r) * ((b.startTime - a.startTime + b.duration) / 2) -
        (b.driftRate - r) * ((a.startTime - b.startTime + b.duration) / 2)) := by ring
    rw [e]
    have h1 := abs_le.1 ha.freq
    have h2 := abs_le.1 hb.freq
    have h3 := abs_le.1 m1
    have h4 := abs_le.1 m2
    rw [abs_le]
    constructor <;> linarith [h1.1, h1.2, h2.1, h2.2, h3.1, h3.2, h4.1, h4.2]
  have hden : (0 : ℚ) < 1 / 100000000 + a.driftRate ^ 2 + b.driftRate ^ 2 := by positivity
  gcongr

/-- Exact measurements of one signal have distance 0, however fast it drifts. -/
theorem C142_exact_measurements (f r : ℚ) (a b : Hit ℚ ℚ)
    (hlen : 0 ≤ b.duration) (ha : Measures f r 0 0 a) (hb : Measures f r 0 0 b) :
    distanceFunc ideal a b = 0 := by
  have h := C142_measurements_partial f r 0 0 _ a b hlen le_rfl ha hb
  have h0 : 0 ≤ distanceFunc ideal a b := by
    rw [ideal_distance a b]; positivity
  simp only [mul_zero, zero_mul, add_zero, zero_div, ne_eq, OfNat.ofNat_ne_zero, not_false_eq_true,
    zero_pow] at h
  exact le_antisymm h h0

/-- **C142 fails for slow signals.** Two hits whose drift rates differ by at least 9/4 of the sum of
their squares (and 1e-8) are never matched, whatever their frequencies. -/
theorem C142_slow_drift_split (a b : Hit ℚ ℚ)
    (h : 9 / 4 * (1 / 100000000 + a.driftRate ^ 2 + b.driftRate ^ 2) ≤ |a.driftRate - b.driftRate|) :
    50 < distanceFunc ideal a b := by
  rw [ideal_distance a b]
  have hden : (0 : ℚ) < 1 / 100000000 + a.driftRate ^ 2 + b.driftRate ^ 2 := by positivity
  have hq : 9 / 4 ≤ |a.driftRate - b.driftRate| /
      (1 / 100000000 + a.driftRate ^ 2 + b.driftRate ^ 2) := by
    rw [le_div_iff₀ hden]; exact h
  have h0 : (0 : ℚ) ≤ 1 / 100 * |(a.startFreqMHz * 1000000 - b.startFreqMHz * 1000000) +
        (a.driftRate * ((b.startTime - a.startTime + b.duration) / 2) -
          b.driftRate * ((a.startTime - b.startTime + b.duration) / 2))| := by positivity
  nlinarith

/-- So a signal that does not drift, measured once at 0 Hz/s and once one drift step `q` away, is not
matched with itself, for every step between 1e-7 and 0.4 Hz/s. -/
theorem C142_one_step_from_zero (q : ℚ) (h1 : 1 / 10000000 ≤ q) (h2 : q ≤ 2 / 5) (a b : Hit ℚ ℚ)
    (ha : a.driftRate = 0) (hb : b.driftRate = q) :
    50 < distanceFunc ideal a b := by
  refine C142_slow_drift_split a b ?_
  rw [ha, hb, zero_sub, abs_neg, abs_of_nonneg (by linarith)]
  nlinarith

/-- **C142 fails for fast signals.** Two hits that drift by `r` and `-r` Hz/s, with `r` at least 1, and
whose tracks cross half way between the scans, are matched. -/
theorem C142_opposite_drifts_match (r : ℚ) (hr : 1 ≤ r) (a b : Hit ℚ ℚ)
    (ha : a.driftRate = r) (hb : b.driftRate = -r)
    (hf : a.startFreqMHz * 1000000 + r * b.duration = b.startFreqMHz * 1000000) :
    distanceFunc ideal a b < 50 := by
  rw [ideal_distance a b, ha, hb, ← hf]
  have e : a.startFreqMHz * 1000000 - (a.startFreqMHz * 1000000 + r * b.duration) +
      (r * ((b.startTime - a.startTime + b.duration) / 2) -
        -r * ((a.startTime - b.startTime + b.duration) / 2)) = 0 := by ring
  rw [e, abs_zero, mul_zero, zero_add, show r - -r = 2 * r by ring, abs_of_nonneg (by linarith)]
  have hden : (0 : ℚ) < 1 / 100000000 + r ^ 2 + (-r) ^ 2 := by positivity
  have hq : 2 * r / (1 / 100000000 + r ^ 2 + (-r) ^ 2) ≤ 1 := by
    rw [div_le_one hden]; nlinarith
  have hq0 : 0 ≤ 2 * r / (1 / 100000000 + r ^ 2 + (-r) ^ 2) := by positivity
  nlinarith

/-! ## C141 for a drifting signal -/

/-- The frequency in Hz at time `t` of the track of a hit. -/
def trackAt (h : Hit ℚ ℚ) (t : ℚ) : ℚ := h.startFreqMHz * 1000000 + h.driftRate * (t - h.startTime)

/-- Hits whose tracks stay 5 kHz apart are not close. -/
theorem far_tracks (t0 t1 : ℚ) (a b : Hit ℚ ℚ)
    (ha : 0 ≤ a.duration ∧ t0 ≤ a.startTime ∧ a.startTime + a.duration ≤ t1)
    (hb : 0 ≤ b.duration ∧ t0 ≤ b.startTime ∧ b.startTime + b.duration ≤ t1)
    (h : ∀ t, t0 ≤ t → t ≤ t1 → 5000 ≤ |trackAt a t - trackAt b t|) :
    50 ≤ distanceFunc ideal a b := by
  rw [ideal_distance a b]
  obtain ⟨a0, a1, a2⟩ := ha
  obtain ⟨b0, b1, b2⟩ := hb
  have := h ((a.startTime + b.startTime + b.duration) / 2) (by linarith) (by linarith)
  have e : trackAt a ((a.startTime + b.startTime + b.duration) / 2) -
      trackAt b ((a.startTime + b.startTime + b.duration) / 2) =
      (a.startFreqMHz * 1000000 - b.startFreqMHz * 1000000) +
        (a.driftRate * ((b.startTime - a.startTime + b.duration) / 2) -
          b.driftRate * ((a.startTime - b.startTime + b.duration) / 2)) := by
    unfold trackAt; ring
  rw [e] at this
  have h0 : (0 : ℚ) ≤ 10 * (|a.driftRate - b.driftRate| /
        (1 / 100000000 + a.driftRate ^ 2 + b.driftRate ^ 2)) ^ 2 := by positivity
  linarith

theorem mean_far (vs : List ℚ) (hne : vs ≠ []) (h : ∀ v ∈ vs, 50 ≤ v) :
    50 ≤ vs.foldl ideal.addF 0 / (vs.length : ℚ) := by
  have key : ∀ (vs : List ℚ) (s : ℚ), (∀ v ∈ vs, 50 ≤ v) →
      s + 50 * vs.length ≤ vs.foldl ideal.addF s := by
    intro vs
    induction vs with
    | nil => intro s _; simp
    | cons x vs ih =>
      intro s h
      have h1 := ih (ideal.addF s x) (fun y hy => h y (List.mem_cons_of_mem _ hy))
      have h2 := h x List.mem_cons_self
      have h3 : ideal.addF s x = s + x := rfl
      simp only [List.foldl_cons, List.length_cons, Nat.cast_add, Nat.cast_one]
      rw [h3] at h1 ⊢
      linarith
  have hk := key vs 0 h
  have hpos : (0 : ℚ) < vs.length := by exact_mod_cast List.length_pos_of_ne_nil hne
  rw [le_div_iff₀ hpos]
  linarith

theorem measured_track {f r : ℚ} {h : Hit ℚ ℚ} (hm : Measures f r 0 0 h) (t : ℚ) :
    trackAt h t = f + r * t := by
  have h1 := abs_nonpos_iff.1 hm.freq
  have h2 := abs_nonpos_iff.1 hm.drift
  unfold trackAt
  have h3 : h.driftRate = r := by linarith
  rw [h3]; linarith

/-- **C141 (part): a drifting signal.** In exact arithmetic, for scans of any lengths: a signal that is
at `f + r·t` Hz at time `t`, measured in at least two scans of the first target, at most once in each,
with no other hit of the cadence within 5 kHz of it while it is observed, is reported as one event of
exactly its hits, and no other event holds one of them. -/
theorem C141_drifting_signal_partial (f r t0 t1 : ℚ) (on : List (ScanHits ℚ ℚ))
    (offs : List (List (ScanHits ℚ ℚ)))
    (hdur : ∀ a ∈ hitsOf (on :: offs), 0 ≤ a.duration ∧ t0 ≤ a.startTime ∧
      a.startTime + a.duration ≤ t1)
    (sig : Hit ℚ ℚ → Bool) (hone : ∀ sc ∈ on, (sc.hits.filter sig).length ≤ 1)
    (hsig : ∀ a ∈ hitsOf [on], sig a = true → Measures f r 0 0 a)
    (hother : ∀ b ∈ hitsOf [on], sig b = false → ∀ t, t0 ≤ t → t ≤ t1 →
      5000 ≤ |trackAt b t - (f + r * t)|)
    (hoff : ∀ b ∈ hitsOf offs, ∀ t, t0 ≤ t → t ≤ t1 → 5000 ≤ |trackAt b t - (f + r * t)|)
    (htwo : 2 ≤ (on.flatMap fun sc => sc.hits.filter sig).length) :
    ∃ es, eventSearch ideal exMap (on :: offs) = .ok es ∧
      (es.map Event.hits).filter (fun l => l.any sig) =
        [on.flatMap fun sc => sc.hits.filter sig] := by
  have hsub : ∀ a ∈ hitsOf [on], a ∈ hitsOf (on :: offs) := by
    intro a ha
    obtain ⟨sc, hsc, ha⟩ := List.mem_flatMap.1 ha
    refine List.mem_flatMap.2 ⟨sc, ?_, ha⟩
    simp only [List.flatten_cons, List.flatten_nil, List.append_nil] at hsc
    simp [hsc]
  have hsub' : ∀ a ∈ hitsOf offs, a ∈ hitsOf (on :: offs) := by
    intro a ha
    obtain ⟨sc, hsc, ha⟩ := List.mem_flatMap.1 ha
    refine List.mem_flatMap.2 ⟨sc, ?_, ha⟩
    rw [List.flatten_cons]
    exact List.mem_append_right _ hsc
  have hfar : ∀ a ∈ hitsOf (on :: offs), ∀ b ∈ hitsOf (on :: offs), Measures f r 0 0 a →
      (∀ t, t0 ≤ t → t ≤ t1 → 5000 ≤ |trackAt b t - (f + r * t)|) →
      50 ≤ distanceFunc ideal b a ∧ 50 ≤ distanceFunc ideal a b := by
    intro a ha b hb hm h
    refine ⟨far_tracks t0 t1 b a (hdur b hb) (hdur a ha) ?_,
      far_tracks t0 t1 a b (hdur a ha) (hdur b hb) ?_⟩
    · intro t h0 h1
      rw [measured_track hm]
      exact h t h0 h1
    · intro t h0 h1
      rw [measured_track hm, abs_sub_comm]
      exact h t h0 h1
  refine C141_reported_partial ideal ratOrd_lawful ratOrd_lawful ratOrd_total ratOrd_total ideal_congr
    ideal_lt ideal_notLt exMap (listMap_sound _) on offs sig hone ?_ ?_ htwo ?_
  · intro a ha b hb sa sb
    have := C142_exact_measurements f r a b (hdur b (hsub b hb)).1 (hsig a ha sa) (hsig b hb sb)
    show decide (distanceFunc ideal a b < 50) = true
    rw [this]; simp
  · intro a ha b hb hne
    show decide (distanceFunc ideal a b < 50) = false
    rw [decide_eq_false_iff_not, not_lt]
    cases sa : sig a with
    | true =>
      have sb : sig b = false := by
        cases hsb : sig b with
        | false => rfl
        | true => rw [sa, hsb] at hne; exact absurd rfl hne
      exact (hfar a (hsub a ha) b (hsub b hb) (hsig a ha sa) (hother b hb sb)).2
    | false =>
      have sb : sig b = true := by
        cases hsb : sig b with
        | true => rfl
        | false => rw [sa, hsb] at hne; exact absurd rfl hne
      exact (hfar b (hsub b hb) a (hsub a ha) (hsig b hb sb) (hother a ha sa)).1
  · intro off hoff' vs hvs
    have hS : ∀ x ∈ (on.flatMap fun sc => sc.hits.filter sig), x ∈ hitsOf [on] ∧ sig x = true := by
      intro x hx
      obtain ⟨sc, hsc, hx⟩ := List.mem_flatMap.1 hx
      obtain ⟨h1, h2⟩ := List.mem_filter.1 hx
      exact ⟨List.mem_flatMap.2 ⟨sc, by simpa using hsc, h1⟩, h2⟩
    generalize (on.flatMap fun sc => sc.hits.filter sig) = S at hS hvs htwo ⊢
    have hlen := hvs.length_eq
    have h50 : ∀ v ∈ vs, 50 ≤ v := by
      clear htwo hlen
      induction hvs with
      | nil => simp
      | cons hv _ ih =>
        intro v hv'
        rename_i x w _ _ _
        rcases List.mem_cons.1 hv' with rfl | hv'
        · obtain ⟨q1, q2⟩ := hS x List.mem_cons_self
          have := hfar x (hsub x q1) off (hsub' off hoff') (hsig x q1 q2) (hoff off hoff')
          rcases hv with h | h <;> rw [h]
          · exact this.1
          · exact this.2
        · exact ih (fun y hy => hS y (List.mem_cons_of_mem _ hy)) v hv'
    show decide (vs.foldl ideal.addF 0 / (S.length : ℚ) < 50) = false
    rw [decide_eq_false_iff_not, not_lt, hlen]
    exact mean_far vs (by
      intro h
      rw [h, List.length_nil] at hlen
      omega) h50

/-- A signal at 8400 MHz that drifts by 1/2 Hz/s, observed in three scans of 300, 250 and 300 s, 600 s apart, among
another signal 1 MHz above it, with an OFF scan that sees only the other one. -/
def isoOn : List (ScanHits ℚ ℚ) :=
  [⟨1, 300, [exHit 8401 0 300 0 9, exHit 8400 0 300 (1 / 2) 20]⟩,
   ⟨1, 250, [exHit (8400 + 3 / 10000) 600 250 (1 / 2) 22]⟩,
   ⟨1, 300, [exHit (8400 + 6 / 10000) 1200 300 (1 / 2) 21, exHit 8401 1200 300 0 9]⟩]
def isoOff : List (List (ScanHits ℚ ℚ)) := [[⟨1, 200, [exHit 8401 300 200 0 9]⟩]]
def isoSig (h : Hit ℚ ℚ) : Bool := decide (h.startFreqMHz < 8401 - 1 / 10)

/-- It meets the hypotheses. -/
example : ∃ es, eventSearch ideal exMap (isoOn :: isoOff) = .ok es ∧
    (es.map Event.hits).filter (fun l => l.any isoSig) =
      [[exHit 8400 0 300 (1 / 2) 20, exHit (8400 + 3 / 10000) 600 250 (1 / 2) 22,
        exHit (8400 + 6 / 10000) 1200 300 (1 / 2) 21]] := by
  have hS : (isoOn.flatMap fun sc => sc.hits.filter isoSig) =
      [exHit 8400 0 300 (1 / 2) 20, exHit (8400 + 3 / 10000) 600 250 (1 / 2) 22,
        exHit (8400 + 6 / 10000) 1200 300 (1 / 2) 21] := by decide +kernel
  have hH : hitsOf [isoOn] = [exHit 8401 0 300 0 9, exHit 8400 0 300 (1 / 2) 20,
      exHit (8400 + 3 / 10000) 600 250 (1 / 2) 22, exHit (8400 + 6 / 10000) 1200 300 (1 / 2) 21,
      exHit 8401 1200 300 0 9] := rfl
  have hO : hitsOf isoOff = [exHit 8401 300 200 0 9] := rfl
  have hfar : ∀ st len t : ℚ, 0 ≤ t → t ≤ 1500 →
      5000 ≤ |trackAt (exHit 8401 st len 0 9) t - (8400000000 + 1 / 2 * t)| := by
    intro st len t h0 h1
    have : trackAt (exHit 8401 st len 0 9) t = 8401000000 := by
      show (8401 : ℚ) * 1000000 + 0 * (t - st) = _; ring
    rw [this, abs_of_nonneg (by linarith)]; linarith
  rw [← hS]
  refine C141_drifting_signal_partial 8400000000 (1 / 2) 0 1500 isoOn isoOff
    (by decide +kernel) isoSig (by decide +kernel) ?_ ?_ ?_ (by decide +kernel)
  · intro a ha hs
    rw [hH] at ha
    simp only [List.mem_cons, List.not_mem_nil, or_false] at ha
    rcases ha with rfl | rfl | rfl | rfl | rfl
    · exact absurd hs (by decide +kernel)
    · exact ⟨by decide +kernel, by decide +kernel⟩
    · exact ⟨by decide +kernel, by decide +kernel⟩
    · exact ⟨by decide +kernel, by decide +kernel⟩
    · exact absurd hs (by decide +kernel)
  · intro a ha hs t h0 h1
    rw [hH] at ha
    simp only [List.mem_cons, List.not_mem_nil, or_false] at ha
    rcases ha with rfl | rfl | rfl | rfl | rfl
    · exact hfar 0 300 t h0 h1
    · exact absurd hs (by decide +kernel)
    · exact absurd hs (by decide +kernel)
    · exact absurd hs (by decide +kernel)
    · exact hfar 1200 300 t h0 h1
  · intro a ha t h0 h1
    rw [hO] at ha
    rw [List.mem_singleton.1 ha]
    exact hfar 300 200 t h0 h1

/-! ## The whole search on a slow signal -/

/-- Hits of one scan each at 8400 MHz, one with drift 0 and one a drift step away. -/
example : 50 < distanceFunc ideal (exHit 8400 0 300 0 20) (exHit 8400 600 300 (1 / 100) 20) :=
  C142_one_step_from_zero (1 / 100) (by norm_num) (by norm_num) _ _ rfl rfl

/-- **C141 fails for slow signals measured with a drift resolution of 0.01 Hz/s.** A signal that stays
within 3 Hz of 8400 MHz, seen in both scans of the target and nowhere else, is not reported, because
the nearest drift rate of the search is 0 in one scan and one step in the other. -/
theorem C141_slow_signal_lost :
    (∀ h ∈ hitsOf [[⟨1, 300, [exHit 8400 0 300 0 20]⟩, ⟨1, 300, [exHit 8400 600 300 (1 / 100) 20]⟩]],
      Measures 8400000000 (1 / 200) 3 (1 / 200) h) ∧
    eventSearch ideal exMap
      [[⟨1, 300, [exHit 8400 0 300 0 20]⟩, ⟨1, 300, [exHit 8400 600 300 (1 / 100) 20]⟩]] = .ok [] := by
  refine ⟨?_, by decide +kernel⟩
  intro h hh
  have : hitsOf [[(⟨1, 300, [exHit 8400 0 300 0 20]⟩ : ScanHits ℚ ℚ),
      ⟨1, 300, [exHit 8400 600 300 (1 / 100) 20]⟩]] =
      [exHit 8400 0 300 0 20, exHit 8400 600 300 (1 / 100) 20] := rfl
  rw [this] at hh
  simp only [List.mem_cons, List.not_mem_nil, or_false] at hh
  rcases hh with rfl | rfl
  · exact ⟨by decide +kernel, by decide +kernel⟩
  · exact ⟨by decide +kernel, by decide +kernel⟩

/-- Two hits that drift by 2 Hz/s in opposite directions are matched. -/
example : distanceFunc ideal (exHit 8400 0 300 2 20) (exHit (8400 + 6 / 10000) 600 300 (-2) 20) < 50 :=
  C142_opposite_drifts_match 2 (by norm_num) _ _ rfl rfl (by decide +kernel)

/-- Measurements of a signal that drifts by 3 Hz/s, each off by 3 Hz and 0.01 Hz/s. -/
example : distanceFunc ideal (exHit 8400 0 300 3 20)
    (exHit (8400 + 1806 / 1000000) 600 300 (3 + 1 / 100) 20) < 50 := by
  have := C142_measurements_partial 8400000000 3 6 (1 / 100) 900 (exHit 8400 0 300 3 20)
    (exHit (8400 + 1806 / 1000000) 600 300 (3 + 1 / 100) 20) (by decide +kernel)
    (by decide +kernel) ⟨by decide +kernel, by decide +kernel⟩ ⟨by decide +kernel, by decide +kernel⟩
  refine lt_of_le_of_lt this ?_
  decide +kernel

end Bliss.Event
