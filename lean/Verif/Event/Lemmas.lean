import Verif.Event.Model
import Mathlib.Data.List.Basic
import Mathlib.Data.List.Nodup
import Mathlib.Data.List.Forall2
import Mathlib.Data.List.Perm.Subperm

/-!
# Lemmas about event search
-/

namespace Bliss.Event

open Bliss.Hit (Hit FOrd)
open Bliss.File (Event)

variable {F D C : Type} {o : EvOps F D} {dist : C → Hit F D → Hit F D → F × C}

/-- The hits of the scans `k, k+1, …`, each with the number of its scan. -/
def tagged (k : Nat) : List (List (Hit F D)) → List (Nat × Hit F D)
  | [] => []
  | hs :: rest => hs.map (fun h => (k, h)) ++ tagged (k + 1) rest

theorem mem_tagged {k : Nat} {ls : List (List (Hit F D))} {j : Nat} {h : Hit F D} :
    (j, h) ∈ tagged k ls ↔ ∃ i hs, ls[i]? = some hs ∧ j = k + i ∧ h ∈ hs := by
  induction ls generalizing k with
  | nil => simp [tagged]
  | cons hs rest ih =>
    simp only [tagged, List.mem_append, List.mem_map, Prod.mk.injEq, ih]
    constructor
    · rintro (⟨h', hm, hk, rfl⟩ | ⟨i, hs', hi, hj, hm⟩)
      · exact ⟨0, hs, by simp, by omega, hm⟩
      · exact ⟨i + 1, hs', by simpa using hi, by omega, hm⟩
    · rintro ⟨i, hs', hi, hj, hm⟩
      cases i with
      | zero =>
        simp only [List.getElem?_cons_zero, Option.some.injEq] at hi
        subst hi
        exact Or.inl ⟨h, hm, by omega, rfl⟩
      | succ i =>
        exact Or.inr ⟨i, hs', by simpa using hi, by omega, hm⟩

/-! ## Which hits are used -/

theorem pickBest_range (ev hits : List (Hit F D)) (i : Nat) (best : F) (at' : Option Nat) (c : C)
    (j : Nat) (h : (pickBest o dist ev hits i best at' c).2.1 = some j) :
    at' = some j ∨ (i ≤ j ∧ j < i + hits.length) := by
  induction hits generalizing i best at' c with
  | nil => exact Or.inl h
  | cons a hs ih =>
    simp only [pickBest] at h
    split at h
    · rcases ih _ _ _ _ h with h' | h'
      · simp only [Option.some.injEq] at h'
        right; simp only [List.length_cons]; omega
      · right; simp only [List.length_cons]; omega
    · rcases ih _ _ _ _ h with h' | h'
      · exact Or.inl h'
      · right; simp only [List.length_cons]; omega

/-- If the best distance improved on the initial one, a position was recorded. -/
theorem pickBest_none (ev hits : List (Hit F D)) (i : Nat) (best : F) (at' : Option Nat) (c : C)
    (h : (pickBest o dist ev hits i best at' c).2.1 = none) :
    at' = none ∧ (pickBest o dist ev hits i best at' c).1 = best := by
  induction hits generalizing i best at' c with
  | nil => exact ⟨h, rfl⟩
  | cons a hs ih =>
    simp only [pickBest] at h ⊢
    split at h
    · exact absurd (ih _ _ _ _ h).1 (by simp)
    · rename_i hlt
      rw [if_neg hlt]; exact ih _ _ _ _ h

/-- A step through a later scan: nothing changes, or one hit moves to the end of the event. -/
theorem matchScan_cases (hbig : o.ltF o.fltMax o.fifty = false) (ev hits : List (Hit F D)) (c : C) :
    (∃ c', matchScan o dist ev hits c = .ok (ev, hits, c')) ∨
    (∃ i h c', hits[i]? = some h ∧ matchScan o dist ev hits c = .ok (ev ++ [h], hits.eraseIdx i, c')) := by
  unfold matchScan
  simp only []
  by_cases hlt : o.ltF (pickBest o dist ev hits 0 o.fltMax none c).1 o.fifty = true
  · rw [if_pos hlt]
    cases hp : (pickBest o dist ev hits 0 o.fltMax none c).2.1 with
    | none =>
      rw [(pickBest_none ev hits 0 o.fltMax none c hp).2, hbig] at hlt
      cases hlt
    | some i =>
      right
      rcases pickBest_range ev hits 0 o.fltMax none c i hp with h' | h'
      · cases h'
      · have hi : i < hits.length := by omega
        refine ⟨i, hits[i], (pickBest o dist ev hits 0 o.fltMax none c).2.2,
          List.getElem?_eq_getElem hi, ?_⟩
        simp only [List.getElem?_eq_getElem hi]
  · rw [if_neg hlt]
    exact Or.inl ⟨_, rfl⟩

theorem perm_eraseIdx {α : Type} (l : List α) (i : Nat) (a : α) (h : l[i]? = some a) :
    List.Perm l (a :: l.eraseIdx i) := by
  induction l generalizing i with
  | nil => simp at h
  | cons b l ih =>
    cases i with
    | zero =>
      simp only [List.getElem?_cons_zero, Option.some.injEq] at h
      subst h
      simp [List.eraseIdx]
    | succ i =>
      simp only [List.getElem?_cons_succ] at h
      simp only [List.eraseIdx_cons_succ]
      exact ((ih i h).cons b).trans (List.Perm.swap a b _)

/-- Extending a candidate through the later scans always succeeds; the added hits come one each
from later scans, in order, and leave the lists. -/
theorem extend_uses (hbig : o.ltF o.fltMax o.fifty = false) (k : Nat) (ev : List (Hit F D))
    (rest : List (List (Hit F D))) (c : C) :
    ∃ (added : List (Nat × Hit F D)) (rest' : List (List (Hit F D))) (c' : C),
      extend o dist ev rest c = .ok (ev ++ added.map Prod.snd, rest', c') ∧
      (added.map Prod.fst).Pairwise (· < ·) ∧ (∀ x ∈ added, k ≤ x.1) ∧
      rest'.length = rest.length ∧
      List.Perm (tagged k rest) (added ++ tagged k rest') := by
  induction rest generalizing k ev c with
  | nil => exact ⟨[], [], c, by simp [extend], by simp, by simp, rfl, by simp [tagged]⟩
  | cons hits rest ih =>
    rcases matchScan_cases (dist := dist) hbig ev hits c with ⟨c1, h1⟩ | ⟨i, h, c1, hi, h1⟩
    · obtain ⟨added, rest', c', h2, hpw, hge, hlen, hperm⟩ := ih (k + 1) ev c1
      refine ⟨added, hits :: rest', c', ?_, hpw, ?_, by simp [hlen], ?_⟩
      · simp only [extend, h1, Outcome.bind_ok, h2, Outcome.pure_eq]
      · intro x hx; have := hge x hx; omega
      · simp only [tagged]
        refine (List.Perm.append_left _ hperm).trans ?_
        rw [← List.append_assoc, ← List.append_assoc]
        exact List.Perm.append_right _ List.perm_append_comm
    · obtain ⟨added, rest', c', h2, hpw, hge, hlen, hperm⟩ := ih (k + 1) (ev ++ [h]) c1
      refine ⟨(k, h) :: added, hits.eraseIdx i :: rest', c', ?_, ?_, ?_, by simp [hlen], ?_⟩
      · simp only [extend, h1, Outcome.bind_ok, h2, Outcome.pure_eq, List.map_cons,
          List.append_assoc, List.singleton_append]
      · simp only [List.map_cons, List.pairwise_cons, List.mem_map]
        refine ⟨?_, hpw⟩
        rintro a ⟨x, hx, rfl⟩
        have := hge x hx; omega
      · intro x hx
        rcases List.mem_cons.mp hx with rfl | hx
        · exact Nat.le_refl _
        · have := hge x hx; omega
      · simp only [tagged]
        have hp := (perm_eraseIdx hits i h hi).map (fun h => (k, h))
        refine (List.Perm.append hp hperm).trans ?_
        simp only [List.map_cons, List.cons_append]
        refine List.Perm.cons _ ?_
        rw [← List.append_assoc, ← List.append_assoc]
        exact List.Perm.append_right _ List.perm_append_comm

/-- What the events use: for every event a list of hits with scan numbers. -/
def Uses (es : List (Event F D)) (uses : List (List (Nat × Hit F D))) : Prop :=
  es.map Event.hits = uses.map (List.map Prod.snd) ∧
  ∀ u ∈ uses, 2 ≤ u.length ∧ (u.map Prod.fst).Pairwise (· < ·)

theorem fromScan_uses (hbig : o.ltF o.fltMax o.fifty = false) (offs : List (Hit F D))
    (sc : ScanHits F D) (k : Nat) (hits : List (Hit F D)) (rest : List (List (Hit F D))) (c : C) :
    ∃ (es : List (Event F D)) (rest' : List (List (Hit F D))) (c' : C)
      (uses : List (List (Nat × Hit F D))),
      fromScan o dist offs sc hits rest c = .ok (es, rest', c') ∧
      rest'.length = rest.length ∧ Uses es uses ∧
      List.Subperm (uses.flatten ++ tagged (k + 1) rest')
        (hits.map (fun h => (k, h)) ++ tagged (k + 1) rest) := by
  induction hits generalizing rest c with
  | nil => exact ⟨[], rest, c, [], rfl, rfl, ⟨rfl, by simp⟩, by simpa using List.Subperm.refl _⟩
  | cons h hs ih =>
    obtain ⟨added, rest1, c1, h1, hpw, hge, hlen, hperm⟩ :=
      extend_uses (dist := dist) hbig (k + 1) [h] rest c
    cases ht : timesInOff o dist ([h] ++ added.map Prod.snd) offs 0 c1 with
    | mk n c2 =>
    obtain ⟨es, rest', c', uses, h2, hlen2, hu, hsub⟩ := ih rest1 c2
    have hrun : fromScan o dist offs sc (h :: hs) rest c =
        .ok (if ([h] ++ added.map Prod.snd).length > 1 ∧ n = 0 then
          mkEvent o sc h ([h] ++ added.map Prod.snd) :: es else es, rest', c') := by
      simp only [fromScan, h1, Outcome.bind_ok, ht, h2, Outcome.pure_eq]
    -- the hits this candidate takes
    have hall : List.Subperm (((k, h) :: added) ++ (uses.flatten ++ tagged (k + 1) rest'))
        ((h :: hs).map (fun h => (k, h)) ++ tagged (k + 1) rest) := by
      have e1 : List.Perm ((h :: hs).map (fun h => (k, h)) ++ tagged (k + 1) rest)
          (((k, h) :: added) ++ (hs.map (fun h => (k, h)) ++ tagged (k + 1) rest1)) := by
        simp only [List.map_cons, List.cons_append]
        refine List.Perm.cons _ ?_
        refine (List.Perm.append_left _ hperm).trans ?_
        rw [← List.append_assoc, ← List.append_assoc]
        exact List.Perm.append_right _ List.perm_append_comm
      exact ((List.subperm_append_left ((k, h) :: added)).2 hsub).trans e1.symm.subperm
    by_cases hcond : ([h] ++ added.map Prod.snd).length > 1 ∧ n = 0
    · rw [if_pos hcond] at hrun
      refine ⟨_, rest', c', ((k, h) :: added) :: uses, hrun, by omega, ⟨?_, ?_⟩, ?_⟩
      · simp only [List.map_cons, hu.1]
        rfl
      · intro u hm
        rcases List.mem_cons.mp hm with rfl | hm
        · refine ⟨?_, ?_⟩
          · have := hcond.1
            simp only [List.singleton_append, List.length_cons, List.length_map] at this
            simp only [List.length_cons]; omega
          · simp only [List.map_cons, List.pairwise_cons, List.mem_map]
            refine ⟨?_, hpw⟩
            rintro a ⟨x, hx, rfl⟩
            have := hge x hx; omega
        · exact hu.2 u hm
      · simpa using hall
    · rw [if_neg hcond] at hrun
      refine ⟨_, rest', c', uses, hrun, by omega, hu, ?_⟩
      exact ((List.sublist_append_right _ _).subperm).trans hall

theorem fromScans_uses (hbig : o.ltF o.fltMax o.fifty = false) (offs : List (Hit F D)) (k : Nat)
    (scs : List (ScanHits F D)) (ls : List (List (Hit F D))) (c : C) :
    ∃ (es : List (Event F D)) (uses : List (List (Nat × Hit F D))),
      fromScans o dist offs scs ls c = .ok es ∧ Uses es uses ∧
      List.Subperm uses.flatten (tagged k ls) := by
  induction scs generalizing ls c k with
  | nil => exact ⟨[], [], by simp [fromScans], ⟨rfl, by simp⟩, by simp⟩
  | cons sc scs ih =>
    cases ls with
    | nil => exact ⟨[], [], by simp [fromScans], ⟨rfl, by simp⟩, by simp⟩
    | cons hits rest =>
      obtain ⟨es1, rest', c', u1, h1, -, hu1, hs1⟩ :=
        fromScan_uses (dist := dist) hbig offs sc k hits rest c
      obtain ⟨es2, u2, h2, hu2, hs2⟩ := ih (k + 1) rest' c'
      refine ⟨es1 ++ es2, u1 ++ u2, ?_, ⟨?_, ?_⟩, ?_⟩
      · simp only [fromScans, h1, Outcome.bind_ok, h2, Outcome.pure_eq]
      · simp only [List.map_append, hu1.1, hu2.1]
      · intro u hu
        rcases List.mem_append.mp hu with hu | hu
        · exact hu1.2 u hu
        · exact hu2.2 u hu
      · simp only [List.flatten_append, tagged]
        exact ((List.subperm_append_left _).2 hs2).trans hs1

/-! ## How close the hits of an event are -/

/-- What is known about the distance object: `Inv` holds of its state, and its answers for the pair
`a`, `b` are acceptable (`P a b`). -/
structure Answers (dist : C → Hit F D → Hit F D → F × C) (Inv : C → Prop)
    (P : Hit F D → Hit F D → F → Prop) : Prop where
  val : ∀ c a b, Inv c → P a b (dist c a b).1
  inv : ∀ c a b, Inv c → Inv (dist c a b).2

variable {Inv : C → Prop} {P : Hit F D → Hit F D → F → Prop}

theorem lowest_inv (ha : Answers dist Inv P) (h : Hit F D) (ev : List (Hit F D)) (low : F) (c : C)
    (hc : Inv c) : Inv (lowest o dist h ev low c).2 := by
  induction ev generalizing low c with
  | nil => exact hc
  | cons e ev ih => exact ih _ _ (ha.inv c e h hc)

theorem lowest_val (ha : Answers dist Inv P) (h : Hit F D) (ev : List (Hit F D)) (low : F) (c : C)
    (hc : Inv c) : (lowest o dist h ev low c).1 = low ∨
      ∃ e ∈ ev, P e h (lowest o dist h ev low c).1 := by
  induction ev generalizing low c with
  | nil => exact Or.inl rfl
  | cons e ev ih =>
    simp only [lowest]
    rcases ih (if o.ltF (dist c e h).1 low then (dist c e h).1 else low) _ (ha.inv c e h hc) with h' | h'
    · rw [h']
      split
      · exact Or.inr ⟨e, by simp, ha.val c e h hc⟩
      · exact Or.inl rfl
    · obtain ⟨e', he', hp⟩ := h'
      exact Or.inr ⟨e', by simp [he'], hp⟩

theorem pickBest_inv (ha : Answers dist Inv P) (ev hits : List (Hit F D)) (i : Nat) (best : F)
    (at' : Option Nat) (c : C) (hc : Inv c) : Inv (pickBest o dist ev hits i best at' c).2.2 := by
  induction hits generalizing i best at' c with
  | nil => exact hc
  | cons a hs ih =>
    simp only [pickBest]
    split
    · exact ih _ _ _ _ (lowest_inv ha a ev _ c hc)
    · exact ih _ _ _ _ (lowest_inv ha a ev _ c hc)

/-- The best distance is the initial one, or an acceptable distance between a hit of the event and
the hit at the recorded position. -/
theorem pickBest_val (ha : Answers dist Inv P) (hirr : o.ltF o.fltMax o.fltMax = false)
    (htr : ∀ a b d : F, o.ltF a b = true → o.ltF b d = true → o.ltF a d = true)
    (ev hits : List (Hit F D)) (i : Nat) (best : F) (at' : Option Nat) (c : C) (hc : Inv c)
    (hle : best = o.fltMax ∨ o.ltF best o.fltMax = true) :
    ((pickBest o dist ev hits i best at' c).1 = best ∧
      (pickBest o dist ev hits i best at' c).2.1 = at') ∨
    ∃ j h, hits[j]? = some h ∧ (pickBest o dist ev hits i best at' c).2.1 = some (i + j) ∧
      ∃ e ∈ ev, P e h (pickBest o dist ev hits i best at' c).1 := by
  induction hits generalizing i best at' c with
  | nil => exact Or.inl ⟨rfl, rfl⟩
  | cons a hs ih =>
    simp only [pickBest]
    have hinv := lowest_inv (o := o) ha a ev o.fltMax c hc
    split
    · rename_i hlt
      have hv : (lowest o dist a ev o.fltMax c).1 ≠ o.fltMax := by
        intro heq
        rw [heq] at hlt
        rcases hle with h | h
        · rw [h, hirr] at hlt; cases hlt
        · rw [htr _ _ _ hlt h] at hirr; cases hirr
      have hlow := (lowest_val (o := o) ha a ev o.fltMax c hc).resolve_left hv
      have hle' : o.ltF (lowest o dist a ev o.fltMax c).1 o.fltMax = true := by
        rcases hle with h | h
        · rw [h] at hlt; exact hlt
        · exact htr _ _ _ hlt h
      rcases ih (i + 1) _ (some i) _ hinv (Or.inr hle') with ⟨h1, h2⟩ | ⟨j, h, hj, hat, hp⟩
      · right
        refine ⟨0, a, by simp, by simpa using h2, ?_⟩
        rw [h1]; exact hlow
      · right
        exact ⟨j + 1, h, by simpa using hj, by rw [hat]; congr 1; omega, hp⟩
    · rcases ih (i + 1) best at' _ hinv hle with ⟨h1, h2⟩ | ⟨j, h, hj, hat, hp⟩
      · exact Or.inl ⟨h1, h2⟩
      · right
        exact ⟨j + 1, h, by simpa using hj, by rw [hat]; congr 1; omega, hp⟩

/-- Every hit but the first is within the limit of an earlier hit. -/
def Chained (o : EvOps F D) (P : Hit F D → Hit F D → F → Prop) (l : List (Hit F D)) : Prop :=
  ∀ i h, 0 < i → l[i]? = some h →
    ∃ j e v, j < i ∧ l[j]? = some e ∧ P e h v ∧ o.ltF v o.fifty = true

/-- `OFF` keeps clear: the average of acceptable distances from an OFF hit to the event is not
below the limit. -/
def ClearOf (o : EvOps F D) (P : Hit F D → Hit F D → F → Prop) (off : Hit F D)
    (l : List (Hit F D)) : Prop :=
  ∃ vs : List F, List.Forall₂ (P off) l vs ∧
    o.ltF (o.divF (vs.foldl o.addF o.zeroF) (o.natF l.length)) o.fifty = false

theorem Chained.singleton (h : Hit F D) : Chained o P [h] := by
  intro i h' hi hg
  obtain ⟨j, rfl⟩ : ∃ j, i = j + 1 := ⟨i - 1, by omega⟩
  simp at hg

theorem Chained.snoc {l : List (Hit F D)} {h : Hit F D} (hl : Chained o P l)
    (hn : ∃ e ∈ l, ∃ v, P e h v ∧ o.ltF v o.fifty = true) : Chained o P (l ++ [h]) := by
  intro i h' hi hg
  by_cases hlt : i < l.length
  · rw [List.getElem?_append_left hlt] at hg
    obtain ⟨j, e, v, hj, he, hp, hv⟩ := hl i h' hi hg
    exact ⟨j, e, v, hj, by rw [List.getElem?_append_left (by omega)]; exact he, hp, hv⟩
  · rw [List.getElem?_append_right (by omega)] at hg
    have h0 : i - l.length = 0 := by
      by_contra hne
      obtain ⟨m, hm⟩ : ∃ m, i - l.length = m + 1 := ⟨i - l.length - 1, by omega⟩
      rw [hm] at hg; simp at hg
    rw [h0] at hg
    simp only [List.getElem?_cons_zero, Option.some.injEq] at hg
    subst hg
    obtain ⟨e, he, v, hp, hv⟩ := hn
    obtain ⟨j, hj, hje⟩ := List.getElem_of_mem he
    exact ⟨j, e, v, by omega,
      by rw [List.getElem?_append_left hj, List.getElem?_eq_getElem hj, hje], hp, hv⟩

/-- Laws of the comparison used below; they hold of `float`. -/
structure LtLaws (o : EvOps F D) : Prop where
  irrefl : ∀ a, o.ltF a a = false
  trans : ∀ a b d : F, o.ltF a b = true → o.ltF b d = true → o.ltF a d = true
  big : o.ltF o.fltMax o.fifty = false

theorem matchScan_chained (hl : LtLaws o) (ha : Answers dist Inv P) (ev hits : List (Hit F D))
    (c : C) (hc : Inv c) (hev : Chained o P ev) {ev' hits' : List (Hit F D)} {c' : C}
    (h : matchScan o dist ev hits c = .ok (ev', hits', c')) : Chained o P ev' ∧ Inv c' := by
  unfold matchScan at h
  simp only [] at h
  have hinv := pickBest_inv (o := o) ha ev hits 0 o.fltMax none c hc
  by_cases hlt : o.ltF (pickBest o dist ev hits 0 o.fltMax none c).1 o.fifty = true
  · rw [if_pos hlt] at h
    rcases pickBest_val ha (hl.irrefl _) hl.trans ev hits 0 o.fltMax none c hc (Or.inl rfl) with
      ⟨h1, h2⟩ | ⟨j, h1, hj, hat, e, he, hp⟩
    · rw [h1, hl.big] at hlt; cases hlt
    · rw [hat] at h
      simp only [Nat.zero_add, hj, Outcome.ok.injEq, Prod.mk.injEq] at h
      obtain ⟨rfl, -, rfl⟩ := h
      exact ⟨hev.snoc ⟨e, he, _, hp, hlt⟩, hinv⟩
  · rw [if_neg hlt] at h
    simp only [Outcome.ok.injEq, Prod.mk.injEq] at h
    obtain ⟨rfl, -, rfl⟩ := h
    exact ⟨hev, hinv⟩

theorem extend_chained (hl : LtLaws o) (ha : Answers dist Inv P) (ev : List (Hit F D))
    (rest : List (List (Hit F D))) (c : C) (hc : Inv c) (hev : Chained o P ev)
    {ev' : List (Hit F D)} {rest' : List (List (Hit F D))} {c' : C}
    (h : extend o dist ev rest c = .ok (ev', rest', c')) : Chained o P ev' ∧ Inv c' := by
  induction rest generalizing ev c ev' rest' c' with
  | nil =>
    simp only [extend, Outcome.ok.injEq, Prod.mk.injEq] at h
    obtain ⟨rfl, -, rfl⟩ := h
    exact ⟨hev, hc⟩
  | cons hits rest ih =>
    simp only [extend] at h
    cases hm : matchScan o dist ev hits c with
    | throws e => rw [hm] at h; cases h
    | ub => rw [hm] at h; cases h
    | ok r =>
      obtain ⟨ev1, hits1, c1⟩ := r
      rw [hm] at h
      simp only [Outcome.bind_ok] at h
      obtain ⟨hch, hc1⟩ := matchScan_chained hl ha ev hits c hc hev hm
      cases hx : extend o dist ev1 rest c1 with
      | throws e => rw [hx] at h; cases h
      | ub => rw [hx] at h; cases h
      | ok r =>
        obtain ⟨ev2, rest2, c2⟩ := r
        rw [hx] at h
        simp only [Outcome.bind_ok, Outcome.pure_eq, Outcome.ok.injEq, Prod.mk.injEq] at h
        obtain ⟨rfl, -, rfl⟩ := h
        exact ih ev1 c1 hc1 hch hx

theorem sumDist_spec (ha : Answers dist Inv P) (off : Hit F D) (ev : List (Hit F D)) (s : F) (c : C)
    (hc : Inv c) : ∃ vs : List F, List.Forall₂ (P off) ev vs ∧
      (sumDist o dist off ev s c).1 = vs.foldl o.addF s ∧ Inv (sumDist o dist off ev s c).2 := by
  induction ev generalizing s c with
  | nil => exact ⟨[], List.Forall₂.nil, rfl, hc⟩
  | cons e ev ih =>
    obtain ⟨vs, h1, h2, h3⟩ := ih (o.addF s (dist c off e).1) _ (ha.inv c off e hc)
    exact ⟨(dist c off e).1 :: vs, List.Forall₂.cons (ha.val c off e hc) h1, h2, h3⟩

theorem timesInOff_mono (ev offs : List (Hit F D)) (n : Nat) (c : C) :
    n ≤ (timesInOff o dist ev offs n c).1 := by
  induction offs generalizing n c with
  | nil => exact Nat.le_refl _
  | cons off offs ih =>
    simp only [timesInOff]
    refine Nat.le_trans ?_ (ih _ _)
    split <;> omega

theorem timesInOff_zero (ha : Answers dist Inv P) (ev offs : List (Hit F D)) (n : Nat) (c : C)
    (hc : Inv c) : Inv (timesInOff o dist ev offs n c).2 ∧
      ((timesInOff o dist ev offs n c).1 = 0 → ∀ off ∈ offs, ClearOf o P off ev) := by
  induction offs generalizing n c with
  | nil => exact ⟨hc, by simp⟩
  | cons off offs ih =>
    obtain ⟨vs, h1, h2, h3⟩ := sumDist_spec (o := o) ha off ev o.zeroF c hc
    simp only [timesInOff]
    obtain ⟨i1, i2⟩ := ih (if o.ltF (o.divF (sumDist o dist off ev o.zeroF c).1 (o.natF ev.length))
      o.fifty then n + 1 else n) _ h3
    refine ⟨i1, fun hz => ?_⟩
    intro off' hoff
    rcases List.mem_cons.mp hoff with rfl | hoff
    · refine ⟨vs, h1, ?_⟩
      have hm := timesInOff_mono (o := o) (dist := dist) ev offs
        (if o.ltF (o.divF (sumDist o dist off' ev o.zeroF c).1 (o.natF ev.length))
          o.fifty then n + 1 else n) (sumDist o dist off' ev o.zeroF c).2
      rw [hz] at hm
      rw [← h2]
      cases hx : o.ltF (o.divF (sumDist o dist off' ev o.zeroF c).1 (o.natF ev.length)) o.fifty with
      | false => rfl
      | true => rw [hx] at hm; simp at hm
    · exact i2 hz off' hoff

theorem fromScan_close (hl : LtLaws o) (ha : Answers dist Inv P) (offs : List (Hit F D))
    (sc : ScanHits F D) (hits : List (Hit F D)) (rest : List (List (Hit F D))) (c : C) (hc : Inv c)
    {es : List (Event F D)} {rest' : List (List (Hit F D))} {c' : C}
    (h : fromScan o dist offs sc hits rest c = .ok (es, rest', c')) :
    Inv c' ∧ ∀ e ∈ es, Chained o P e.hits ∧ (∀ off ∈ offs, ClearOf o P off e.hits) ∧
      ∃ hd tl, e.hits = hd :: tl ∧ hd ∈ hits ∧ e = mkEvent o sc hd e.hits := by
  induction hits generalizing rest c es rest' c' with
  | nil =>
    simp only [fromScan, Outcome.ok.injEq, Prod.mk.injEq] at h
    obtain ⟨rfl, -, rfl⟩ := h
    exact ⟨hc, by simp⟩
  | cons a hs ih =>
    simp only [fromScan] at h
    obtain ⟨added, rest1, c1, h1, -⟩ := extend_uses (dist := dist) hl.big 0 [a] rest c
    obtain ⟨hch, hc1⟩ := extend_chained hl ha [a] rest c hc (Chained.singleton a) h1
    rw [h1] at h
    simp only [Outcome.bind_ok] at h
    have ht := timesInOff_zero (o := o) ha ([a] ++ added.map Prod.snd) offs 0 c1 hc1
    cases hx : fromScan o dist offs sc hs rest1
        (timesInOff o dist ([a] ++ added.map Prod.snd) offs 0 c1).2 with
    | throws e => rw [hx] at h; cases h
    | ub => rw [hx] at h; cases h
    | ok r =>
      obtain ⟨es1, rest2, c2⟩ := r
      rw [hx] at h
      simp only [Outcome.bind_ok, Outcome.pure_eq, Outcome.ok.injEq, Prod.mk.injEq] at h
      obtain ⟨hes, -, rfl⟩ := h
      obtain ⟨hi, hrest⟩ := ih rest1 _ ht.1 hx
      have hold : ∀ e ∈ es1, Chained o P e.hits ∧ (∀ off ∈ offs, ClearOf o P off e.hits) ∧
          ∃ hd tl, e.hits = hd :: tl ∧ hd ∈ a :: hs ∧ e = mkEvent o sc hd e.hits := by
        intro e he
        obtain ⟨p1, p2, hd, tl, p3, p4, p5⟩ := hrest e he
        exact ⟨p1, p2, hd, tl, p3, by simp [p4], p5⟩
      refine ⟨hi, ?_⟩
      split at hes
      · rename_i hcond
        subst hes
        intro e he
        rcases List.mem_cons.mp he with rfl | he
        · exact ⟨hch, ht.2 hcond.2, a, added.map Prod.snd, rfl, by simp, rfl⟩
        · exact hold e he
      · subst hes
        exact hold

theorem fromScans_close (hl : LtLaws o) (ha : Answers dist Inv P) (offs : List (Hit F D))
    (scs : List (ScanHits F D)) (ls : List (List (Hit F D))) (c : C) (hc : Inv c)
    (hlen : ls.length = scs.length)
    (hsub : ∀ (i : Nat) (sc : ScanHits F D) (hs : List (Hit F D)), scs[i]? = some sc → ls[i]? = some hs → ∀ h ∈ hs, h ∈ sc.hits)
    {es : List (Event F D)} (h : fromScans o dist offs scs ls c = .ok es) :
    ∀ e ∈ es, Chained o P e.hits ∧ (∀ off ∈ offs, ClearOf o P off e.hits) ∧
      ∃ sc ∈ scs, ∃ hd tl, e.hits = hd :: tl ∧ hd ∈ sc.hits ∧ e = mkEvent o sc hd e.hits := by
  induction scs generalizing ls c es with
  | nil => simp only [fromScans, Outcome.ok.injEq] at h; subst h; simp
  | cons sc scs ih =>
    cases ls with
    | nil => simp only [fromScans, Outcome.ok.injEq] at h; subst h; simp
    | cons hits rest =>
      simp only [fromScans] at h
      obtain ⟨es1, rest', c', u1, h1, hl1, hu1, hs1⟩ :=
        fromScan_uses (dist := dist) hl.big offs sc 0 hits rest c
      rw [h1] at h
      simp only [Outcome.bind_ok] at h
      obtain ⟨hi, hes1⟩ := fromScan_close hl ha offs sc hits rest c hc h1
      cases hx : fromScans o dist offs scs rest' c' with
      | throws e => rw [hx] at h; cases h
      | ub => rw [hx] at h; cases h
      | ok es2 =>
        rw [hx] at h
        simp only [Outcome.bind_ok, Outcome.pure_eq, Outcome.ok.injEq] at h
        subst h
        simp only [List.length_cons] at hlen
        have hrest : ∀ (i : Nat) (sc : ScanHits F D) (hs : List (Hit F D)), scs[i]? = some sc →
            rest'[i]? = some hs → ∀ h ∈ hs, h ∈ sc.hits := by
          intro i sc' hs' hsc hhs h hm
          have hin : (0 + 1 + i, h) ∈ tagged (0 + 1) rest' := mem_tagged.2 ⟨i, hs', hhs, rfl, hm⟩
          have hin2 : (0 + 1 + i, h) ∈ hits.map (fun h => ((0 : Nat), h)) ++ tagged (0 + 1) rest :=
            hs1.subset (List.mem_append.2 (Or.inr hin))
          rcases List.mem_append.mp hin2 with hin2 | hin2
          · simp at hin2
            omega
          · obtain ⟨i', hs2, hi', hieq, hm'⟩ := mem_tagged.1 hin2
            have : i' = i := by omega
            subst this
            exact hsub (i' + 1) sc' hs2 (by simpa using hsc) (by simpa using hi') h hm'
        intro e he
        rcases List.mem_append.mp he with he | he
        · obtain ⟨p1, p2, hd, tl, p3, p4, p5⟩ := hes1 e he
          exact ⟨p1, p2, sc, by simp, hd, tl, p3,
            hsub 0 sc hits (by simp) (by simp) hd p4, p5⟩
        · obtain ⟨p1, p2, sc', p3, p4⟩ := ih rest' c' hi (by omega) hrest hx e he
          exact ⟨p1, p2, sc', by simp [p3], p4⟩

/-! ## The best match -/

/-- `float` comparison without NaN: `¬ <` is transitive. -/
def NotLtTrans (o : EvOps F D) : Prop :=
  ∀ a b e : F, o.ltF b a = false → o.ltF e b = false → o.ltF e a = false

theorem LtLaws.asymm (hl : LtLaws o) {a b : F} (h : o.ltF a b = true) : o.ltF b a = false := by
  cases hx : o.ltF b a with
  | false => rfl
  | true => have := hl.trans _ _ _ h hx; rw [hl.irrefl] at this; cases this

theorem lowest_least (hl : LtLaws o) (hnt : NotLtTrans o)
    (ha : Answers dist Inv P) (h : Hit F D) (ev : List (Hit F D)) (low : F) (c : C) (hc : Inv c) :
    o.ltF low (lowest o dist h ev low c).1 = false ∧
    ∀ e ∈ ev, ∃ v, P e h v ∧ o.ltF v (lowest o dist h ev low c).1 = false := by
  induction ev generalizing low c with
  | nil => exact ⟨hl.irrefl _, by simp⟩
  | cons e ev ih =>
    simp only [lowest]
    have hv := ha.val c e h hc
    generalize hd : (dist c e h).1 = d at hv
    obtain ⟨h1, h2⟩ := ih (if o.ltF d low then d else low) _ (ha.inv c e h hc)
    generalize (lowest o dist h ev (if o.ltF d low then d else low) (dist c e h).2).1 = r
      at h1 h2
    by_cases hlt : o.ltF d low = true
    · rw [if_pos hlt] at h1
      refine ⟨hnt _ _ _ h1 (hl.asymm hlt), ?_⟩
      intro e' he'
      rcases List.mem_cons.mp he' with rfl | he'
      · exact ⟨d, hv, h1⟩
      · exact h2 e' he'
    · rw [if_neg hlt] at h1
      have hlt' : o.ltF d low = false := by simpa using hlt
      refine ⟨h1, ?_⟩
      intro e' he'
      rcases List.mem_cons.mp he' with rfl | he'
      · exact ⟨d, hv, hnt _ _ _ h1 hlt'⟩
      · exact h2 e' he'

theorem pickBest_least (hl : LtLaws o) (hnt : NotLtTrans o)
    (ha : Answers dist Inv P) (ev hits : List (Hit F D)) (i : Nat) (best : F) (at' : Option Nat)
    (c : C) (hc : Inv c) :
    o.ltF best (pickBest o dist ev hits i best at' c).1 = false ∧
    ∀ h ∈ hits, ∀ e ∈ ev,
      ∃ v, P e h v ∧ o.ltF v (pickBest o dist ev hits i best at' c).1 = false := by
  induction hits generalizing i best at' c with
  | nil => exact ⟨hl.irrefl _, by simp⟩
  | cons a hs ih =>
    simp only [pickBest]
    have hinv := lowest_inv (o := o) ha a ev o.fltMax c hc
    obtain ⟨-, hlow⟩ := lowest_least hl hnt ha a ev o.fltMax c hc
    split
    · rename_i hlt
      obtain ⟨h1, h2⟩ := ih (i + 1) (lowest o dist a ev o.fltMax c).1 (some i) _ hinv
      refine ⟨hnt _ _ _ h1 (hl.asymm hlt), ?_⟩
      intro h hh e he
      rcases List.mem_cons.mp hh with rfl | hh
      · obtain ⟨v, hp, hv⟩ := hlow e he
        exact ⟨v, hp, hnt _ _ _ h1 hv⟩
      · exact h2 h hh e he
    · rename_i hlt
      have hlt' : o.ltF (lowest o dist a ev o.fltMax c).1 best = false := by simpa using hlt
      obtain ⟨h1, h2⟩ := ih (i + 1) best at' _ hinv
      refine ⟨h1, ?_⟩
      intro h hh e he
      rcases List.mem_cons.mp hh with rfl | hh
      · obtain ⟨v, hp, hv⟩ := hlow e he
        exact ⟨v, hp, hnt _ _ _ (hnt _ _ _ h1 hlt') hv⟩
      · exact h2 h hh e he

/-- Without a close hit in it a later scan leaves the event alone; otherwise the hit it contributes
is at least as close as any hit of the scan. -/
theorem matchScan_closest (hl : LtLaws o) (hnt : NotLtTrans o) (ha : Answers dist Inv P)
    (ev hits : List (Hit F D)) (c : C) (hc : Inv c) :
    (∃ c', matchScan o dist ev hits c = .ok (ev, hits, c') ∧ Inv c' ∧
      ∀ h ∈ hits, ∀ e ∈ ev, ∃ v, P e h v ∧ o.ltF v o.fifty = false) ∨
    (∃ i h c' e best, hits[i]? = some h ∧
      matchScan o dist ev hits c = .ok (ev ++ [h], hits.eraseIdx i, c') ∧ Inv c' ∧
      e ∈ ev ∧ P e h best ∧ o.ltF best o.fifty = true ∧
      ∀ h' ∈ hits, ∀ e' ∈ ev, ∃ v, P e' h' v ∧ o.ltF v best = false) := by
  have hinv := pickBest_inv (o := o) ha ev hits 0 o.fltMax none c hc
  obtain ⟨-, hleast⟩ := pickBest_least hl hnt ha ev hits 0 o.fltMax none c hc
  unfold matchScan
  simp only []
  by_cases hlt : o.ltF (pickBest o dist ev hits 0 o.fltMax none c).1 o.fifty = true
  · rw [if_pos hlt]
    rcases pickBest_val ha (hl.irrefl _) hl.trans ev hits 0 o.fltMax none c hc (Or.inl rfl) with
      ⟨h1, h2⟩ | ⟨j, h1, hj, hat, e, he, hp⟩
    · rw [h1, hl.big] at hlt; cases hlt
    · right
      refine ⟨j, h1, _, e, _, hj, ?_, hinv, he, hp, hlt, hleast⟩
      rw [hat]
      simp only [Nat.zero_add, hj]
  · rw [if_neg hlt]
    have hlt' : o.ltF (pickBest o dist ev hits 0 o.fltMax none c).1 o.fifty = false := by
      simpa using hlt
    left
    refine ⟨_, rfl, hinv, ?_⟩
    intro h hh e he
    obtain ⟨v, hp, hv⟩ := hleast h hh e he
    exact ⟨v, hp, hnt _ _ _ hlt' hv⟩

/-! ## Completeness without OFF hits -/

/-- Every acceptable distance between the hits is below the limit. -/
def Close (o : EvOps F D) (P : Hit F D → Hit F D → F → Prop) (a b : Hit F D) : Prop :=
  ∀ v, P a b v → o.ltF v o.fifty = true

theorem extend_complete (hl : LtLaws o) (hnt : NotLtTrans o) (ha : Answers dist Inv P)
    (ev : List (Hit F D)) (rest : List (List (Hit F D))) (c : C) (hc : Inv c) :
    ∃ ev' rest' c', extend o dist ev rest c = .ok (ev', rest', c') ∧ Inv c' ∧
      (ev.length < ev'.length ∨ (ev' = ev ∧ rest' = rest ∧
        ∀ hits ∈ rest, ∀ h ∈ hits, ∀ e ∈ ev, ¬ Close o P e h)) ∧ ev.length ≤ ev'.length := by
  induction rest generalizing ev c with
  | nil => exact ⟨ev, [], c, rfl, hc, Or.inr ⟨rfl, rfl, by simp⟩, Nat.le_refl _⟩
  | cons hits rest ih =>
    rcases matchScan_closest hl hnt ha ev hits c hc with
      ⟨c1, h1, hc1, hfar⟩ | ⟨i, h, c1, e, best, hi, h1, hc1, -⟩
    · obtain ⟨ev', rest', c', h2, hc', hor, hle⟩ := ih ev c1 hc1
      refine ⟨ev', hits :: rest', c', ?_, hc', ?_, hle⟩
      · simp only [extend, h1, Outcome.bind_ok, h2, Outcome.pure_eq]
      · rcases hor with hlt | ⟨rfl, rfl, hall⟩
        · exact Or.inl hlt
        · right
          refine ⟨rfl, rfl, ?_⟩
          intro hs hhs h hh e he hclose
          rcases List.mem_cons.mp hhs with rfl | hhs
          · obtain ⟨v, hp, hv⟩ := hfar h hh e he
            rw [hclose v hp] at hv; cases hv
          · exact hall hs hhs h hh e he hclose
    · obtain ⟨ev', rest', c', h2, hc', -, hle⟩ := ih (ev ++ [h]) c1 hc1
      simp only [List.length_append, List.length_singleton] at hle
      refine ⟨ev', hits.eraseIdx i :: rest', c', ?_, hc', Or.inl (by omega), by omega⟩
      simp only [extend, h1, Outcome.bind_ok, h2, Outcome.pure_eq]

theorem fromScan_complete (hl : LtLaws o) (hnt : NotLtTrans o) (ha : Answers dist Inv P)
    (sc : ScanHits F D) (hits : List (Hit F D)) (rest : List (List (Hit F D))) (c : C) (hc : Inv c) :
    ∃ es rest' c', fromScan o dist [] sc hits rest c = .ok (es, rest', c') ∧ Inv c' ∧
      (es ≠ [] ∨ (rest' = rest ∧
        ∀ a ∈ hits, ∀ hs ∈ rest, ∀ b ∈ hs, ¬ Close o P a b)) := by
  induction hits generalizing rest c with
  | nil => exact ⟨[], rest, c, rfl, hc, Or.inr ⟨rfl, by simp⟩⟩
  | cons a hs ih =>
    obtain ⟨ev', rest1, c1, h1, hc1, hor, hle⟩ := extend_complete hl hnt ha [a] rest c hc
    obtain ⟨es, rest', c', h2, hc', hor2⟩ := ih rest1 c1 hc1
    refine ⟨if ev'.length > 1 ∧ 0 = 0 then mkEvent o sc a ev' :: es else es, rest', c', ?_, hc', ?_⟩
    · simp only [fromScan, h1, Outcome.bind_ok, timesInOff, h2, Outcome.pure_eq]
    · rcases hor with hlt | ⟨rfl, rfl, hfar⟩
      · left
        rw [if_pos ⟨by simpa using hlt, rfl⟩]; simp
      · rw [if_neg (by simp)]
        rcases hor2 with h | ⟨rfl, hfar2⟩
        · exact Or.inl h
        · right
          refine ⟨rfl, ?_⟩
          intro x hx hs' hhs b hb
          rcases List.mem_cons.mp hx with rfl | hx
          · exact hfar hs' hhs b hb x (by simp)
          · exact hfar2 x hx hs' hhs b hb

theorem fromScans_complete (hl : LtLaws o) (hnt : NotLtTrans o) (ha : Answers dist Inv P)
    (scs : List (ScanHits F D)) (ls : List (List (Hit F D))) (c : C) (hc : Inv c)
    (hlen : ls.length = scs.length) :
    ∃ es, fromScans o dist [] scs ls c = .ok es ∧
      (es ≠ [] ∨ ∀ (i j : Nat) (as bs : List (Hit F D)), i < j → ls[i]? = some as → ls[j]? = some bs →
        ∀ a ∈ as, ∀ b ∈ bs, ¬ Close o P a b) := by
  induction scs generalizing ls c with
  | nil =>
    have : ls = [] := by simpa using hlen
    subst this
    exact ⟨[], by simp [fromScans], Or.inr (by simp)⟩
  | cons sc scs ih =>
    cases ls with
    | nil => simp at hlen
    | cons hits rest =>
      obtain ⟨es1, rest', c', h1, hc', hor⟩ := fromScan_complete hl hnt ha sc hits rest c hc
      rcases hor with hne | ⟨rfl, hfar⟩
      · obtain ⟨es2, u2, h2, -⟩ := fromScans_uses (dist := dist) hl.big [] 0 scs rest' c'
        refine ⟨es1 ++ es2, ?_, Or.inl ?_⟩
        · simp only [fromScans, h1, Outcome.bind_ok, h2, Outcome.pure_eq]
        · simp [hne]
      · obtain ⟨es2, h2, hor2⟩ := ih rest' c' hc' (by simpa using hlen)
        refine ⟨es1 ++ es2, ?_, ?_⟩
        · simp only [fromScans, h1, Outcome.bind_ok, h2, Outcome.pure_eq]
        · rcases hor2 with h | h
          · left; simp [h]
          · right
            intro i j as bs hij hi hj a ha' b hb
            obtain ⟨j', rfl⟩ : ∃ j', j = j' + 1 := ⟨j - 1, by omega⟩
            simp only [List.getElem?_cons_succ] at hj
            cases i with
            | zero =>
              simp only [List.getElem?_cons_zero, Option.some.injEq] at hi
              subst hi
              exact hfar a ha' bs (List.mem_of_getElem? hj) b hb
            | succ i =>
              exact h i j' as bs (by omega) (by simpa using hi) hj a ha' b hb

/-! ## The cache -/

/-- What a `std::map` guarantees of `find`: a found value was stored under an equivalent key. -/
structure OrdMap.Sound {K V : Type} (m : OrdMap K V) (cmp : K → K → Bool) where
  Stores : m.M → K → V → Prop
  empty : ∀ k v, ¬ Stores m.empty k v
  find : ∀ c k v, m.find c k = some v → ∃ k', Stores c k' v ∧ cmp k k' = false ∧ cmp k' k = false
  insert : ∀ c k v k' v', m.find c k = none → Stores (m.insert c k v) k' v' →
    Stores c k' v' ∨ (k' = k ∧ v' = v)

/-- A map as a list of entries, searched from the front. -/
def listMap {K V : Type} (cmp : K → K → Bool) : OrdMap K V where
  M := List (K × V)
  empty := []
  find := fun c k => (c.find? (fun e => !cmp k e.1 && !cmp e.1 k)).map Prod.snd
  insert := fun c k v => c ++ [(k, v)]

def listMap_sound {K V : Type} (cmp : K → K → Bool) : (listMap (V := V) cmp).Sound cmp where
  Stores := fun c k v => (k, v) ∈ (show List (K × V) from c)
  empty := by intro k v; exact List.not_mem_nil
  find := by
    intro c k v h
    simp only [listMap, Option.map_eq_some_iff] at h
    obtain ⟨⟨k', v'⟩, hf, rfl⟩ := h
    refine ⟨k', List.mem_of_find?_eq_some hf, ?_⟩
    simpa using List.find?_some hf
  insert := by
    intro c k v k' v' _ h
    rcases List.mem_append.mp h with h | h
    · exact Or.inl h
    · right
      simpa using h

/-- Equal fields, as `operator==` sees them. -/
def SamePair (oF : FOrd F) (oD : FOrd D) (p q : Pair F D) : Prop :=
  Hit.beq oF oD p.1 q.1 = true ∧ Hit.beq oF oD p.2 q.2 = true

end Bliss.Event
