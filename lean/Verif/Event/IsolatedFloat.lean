import Verif.Event.DistFloat

/-!
# C141 in floating point

`Isolated.lean` proves in exact arithmetic that a drifting signal far from all others is reported as
one event. Here the distances are computed in `double` and the averages in `float`, rounded to
nearest, and the measurements of the signal may be off.
-/

namespace Bliss.Event

open Bliss.Hit (Hit FOrd)
open Bliss.File (Event)
open Bliss.Float (rne plainSum RelErr)

theorem ieee_notLt : NotLtTrans ieee := by
  intro a b e
  simp only [ieee, decide_eq_false_iff_not, not_lt]
  exact le_trans

theorem ieee_congr : Congr ieee ratOrd ratOrd := by
  intro a a' b b' ha hb
  simp only [Hit.beq, ratOrd, Bool.and_eq_true, decide_eq_true_eq] at ha hb
  obtain ⟨⟨⟨⟨⟨⟨⟨⟨⟨⟨⟨-, a1⟩, a2⟩, a3⟩, -⟩, a4⟩, -⟩, -⟩, a5⟩, -⟩, -⟩, -⟩ := ha
  obtain ⟨⟨⟨⟨⟨⟨⟨⟨⟨⟨⟨-, b1⟩, b2⟩, b3⟩, -⟩, b4⟩, -⟩, -⟩, b5⟩, -⟩, -⟩, -⟩ := hb
  simp only [distanceFunc, a1, a2, a3, a4, a5, b1, b2, b3, b4, b5]

/-- Hits whose tracks stay `K` Hz apart have a distance of at least `K/100`. -/
theorem far_tracks_ge (K t0 t1 : ℚ) (a b : Hit ℚ ℚ)
    (ha : 0 ≤ a.duration ∧ t0 ≤ a.startTime ∧ a.startTime + a.duration ≤ t1)
    (hb : 0 ≤ b.duration ∧ t0 ≤ b.startTime ∧ b.startTime + b.duration ≤ t1)
    (h : ∀ t, t0 ≤ t → t ≤ t1 → K ≤ |trackAt a t - trackAt b t|) :
    K / 100 ≤ distanceFunc ideal a b := by
  rw [ideal_distance a b]
  obtain ⟨a0, a1, a2⟩ := ha
  obtain ⟨b0, b1, b2⟩ := hb
  have := h ((a.startTime + b.startTime + b.duration) / 2) (by linarith) (by linarith)
  have e : trackAt a ((a.startTime + b.startTime + b.duration) / 2) -
      trackAt b ((a.startTime + b.startTime + b.duration) / 2) =
      (a.startFreqMHz * 1000000 - b.startFreqMHz * 1000000) +
        (a.driftRate * ((b.startTime - a.startTime + b.duration) / 2) -
          b.driftRate * ((a.startTime - b.startTime + b.duration) / 2)) := by
    unfold trackAt; ring
  rw [e] at this
  have h0 : (0 : ℚ) ≤ 10 * (|a.driftRate - b.driftRate| /
        (1 / 100000000 + a.driftRate ^ 2 + b.driftRate ^ 2)) ^ 2 := by positivity
  linarith

/-- The float average of at most 1000 distances of at least 50.9 is at least 50. -/
theorem mean_far_float (vs : List ℚ) (hne : vs ≠ []) (hn : vs.length ≤ 1000)
    (h : ∀ v ∈ vs, 509 / 10 ≤ v) :
    50 ≤ ieee.divF (vs.foldl ieee.addF ieee.zeroF) (ieee.natF vs.length) := by
  show 50 ≤ rne 24 (vs.foldl (fun a b => rne 24 (a + b)) 0 / rne 24 (vs.length : ℚ))
  rw [natExact 24 (by norm_num) vs.length (hn.trans (by norm_num))]
  have hq : (vs.length : ℚ) ≤ 1000 := by exact_mod_cast hn
  have e2 : (2 : ℚ) ^ (-((24 : ℕ) : ℤ)) = 1 / 16777216 := by norm_num
  have hpos : (0 : ℚ) < vs.length := by exact_mod_cast List.length_pos_of_ne_nil hne
  have key := mean_err (rne_rel 24) (rne_rel 24) (by positivity) vs hne (by rw [e2]; linarith)
  rw [e2] at key
  have habs : (vs.map fun x => |x|) = vs := by
    conv_rhs => rw [← List.map_id vs]
    apply List.map_congr_left
    intro v hv
    rw [abs_of_nonneg (by linarith [h v hv])]; rfl
  rw [habs] at key
  have hm : 509 / 10 ≤ mean vs := by
    unfold mean
    rw [le_div_iff₀ hpos]
    have : ∀ l : List ℚ, (∀ v ∈ l, 509 / 10 ≤ v) → 509 / 10 * (l.length : ℚ) ≤ l.sum := by
      intro l
      induction l with
      | nil => intro _; simp
      | cons x l ih =>
        intro hl
        have h1 := ih (fun v hv => hl v (List.mem_cons_of_mem _ hv))
        have h2 := hl x List.mem_cons_self
        simp only [List.length_cons, List.sum_cons, Nat.cast_add, Nat.cast_one]
        linarith
    exact this vs h
  have hle : (2 * (vs.length : ℚ) + 2) * (1 / 16777216) * mean vs ≤ 1 / 5000 * mean vs := by
    apply mul_le_mul_of_nonneg_right _ (by linarith)
    linarith
  have := (abs_le.1 key).1
  change 50 ≤ rne 24 (plainSum (rne 24) vs / (vs.length : ℚ))
  linarith

/-- How far the track of a measurement strays from the signal. -/
theorem track_error {f r δ ρ t0 t1 : ℚ} {h : Hit ℚ ℚ} (hm : Measures f r δ ρ h)
    (hr : 0 ≤ h.duration ∧ t0 ≤ h.startTime ∧ h.startTime + h.duration ≤ t1) (t : ℚ) (h0 : t0 ≤ t)
    (h1 : t ≤ t1) : |trackAt h t - (f + r * t)| ≤ δ + ρ * (t1 - t0) := by
  have e : trackAt h t - (f + r * t) =
      (h.startFreqMHz * 1000000 - (f + r * h.startTime)) +
        (h.driftRate - r) * (t - h.startTime) := by unfold trackAt; ring
  rw [e]
  have h2 := abs_add_le (h.startFreqMHz * 1000000 - (f + r * h.startTime))
    ((h.driftRate - r) * (t - h.startTime))
  rw [abs_mul] at h2
  have h3 : |t - h.startTime| ≤ t1 - t0 := by
    rw [abs_le]; constructor <;> linarith [hr.1, hr.2.1, hr.2.2]
  have h4 := mul_le_mul hm.drift h3 (abs_nonneg _) ((abs_nonneg _).trans hm.drift)
  linarith [hm.freq]

/-- **C141 (part): a drifting signal, in floating point, with errors of measurement.** A cadence of at
most 1000 scans of the first target lasts from `t0` to `t1`, at most a million seconds. A signal at
`f + r·t` Hz at time `t` is measured to within `δ` Hz and `ρ` Hz/s in at least two of those scans, at
most once in each, and `ρ` is small in comparison with the drift. No other hit of the cadence comes
within 5.1 kHz of it, plus the error of its tracks, while it is observed. Then the search, computed in
`double` and `float`, reports exactly one event with hits of the signal, of exactly its hits. -/
theorem C141_drifting_signal_float_partial (f r δ ρ t0 t1 : ℚ) (on : List (ScanHits ℚ ℚ))
    (offs : List (List (ScanHits ℚ ℚ))) (hon : on.length ≤ 1000) (ht : t1 - t0 ≤ 1000000)
    (hrange : ∀ a ∈ hitsOf (on :: offs), InRange a)
    (hdur : ∀ a ∈ hitsOf (on :: offs), t0 ≤ a.startTime ∧ a.startTime + a.duration ≤ t1)
    (sig : Hit ℚ ℚ → Bool) (hone : ∀ sc ∈ on, (sc.hits.filter sig).length ≤ 1)
    (hsig : ∀ a ∈ hitsOf [on], sig a = true → Measures f r δ ρ a)
    (hρ : ρ ≤ |r|)
    (hsmall : 1 / 100 * (2 * δ + 2 * ρ * (t1 - t0)) +
      10 * (2 * ρ / (1 / 100000000 + 2 * (|r| - ρ) ^ 2)) ^ 2 ≤ 49)
    (hother : ∀ b ∈ hitsOf [on], sig b = false → ∀ t, t0 ≤ t → t ≤ t1 →
      5100 + (δ + ρ * (t1 - t0)) ≤ |trackAt b t - (f + r * t)|)
    (hoff : ∀ b ∈ hitsOf offs, ∀ t, t0 ≤ t → t ≤ t1 →
      5100 + (δ + ρ * (t1 - t0)) ≤ |trackAt b t - (f + r * t)|)
    (htwo : 2 ≤ (on.flatMap fun sc => sc.hits.filter sig).length) :
    ∃ es, eventSearch ieee exMap (on :: offs) = .ok es ∧
      (es.map Event.hits).filter (fun l => l.any sig) =
        [on.flatMap fun sc => sc.hits.filter sig] := by
  have hsub : ∀ a ∈ hitsOf [on], a ∈ hitsOf (on :: offs) := by
    intro a ha
    obtain ⟨sc, hsc, ha⟩ := List.mem_flatMap.1 ha
    refine List.mem_flatMap.2 ⟨sc, ?_, ha⟩
    simp only [List.flatten_cons, List.flatten_nil, List.append_nil] at hsc
    simp [hsc]
  have hsub' : ∀ a ∈ hitsOf offs, a ∈ hitsOf (on :: offs) := by
    intro a ha
    obtain ⟨sc, hsc, ha⟩ := List.mem_flatMap.1 ha
    refine List.mem_flatMap.2 ⟨sc, ?_, ha⟩
    rw [List.flatten_cons]
    exact List.mem_append_right _ hsc
  have hd' : ∀ a ∈ hitsOf (on :: offs), 0 ≤ a.duration ∧ t0 ≤ a.startTime ∧
      a.startTime + a.duration ≤ t1 := fun a ha => ⟨(hrange a ha).dur.1, hdur a ha⟩
  have hclose : ∀ a ∈ hitsOf (on :: offs), ∀ b ∈ hitsOf (on :: offs),
      |a.startTime - b.startTime| ≤ 1000000 := by
    intro a ha b hb
    obtain ⟨a0, a1, a2⟩ := hd' a ha
    obtain ⟨b0, b1, b2⟩ := hd' b hb
    rw [abs_le]; constructor <;> linarith
  have hfl : ∀ a ∈ hitsOf (on :: offs), ∀ b ∈ hitsOf (on :: offs), 51 ≤ distanceFunc ideal a b →
      509 / 10 ≤ distanceFunc ieee a b := by
    intro a ha b hb h
    have := (abs_le.1 (C142_float_distance_partial a b (hrange a ha) (hrange b hb)
      (hclose a ha b hb))).1
    linarith
  have hfar : ∀ a ∈ hitsOf (on :: offs), ∀ b ∈ hitsOf (on :: offs), Measures f r δ ρ a →
      (∀ t, t0 ≤ t → t ≤ t1 → 5100 + (δ + ρ * (t1 - t0)) ≤ |trackAt b t - (f + r * t)|) →
      509 / 10 ≤ distanceFunc ieee b a ∧ 509 / 10 ≤ distanceFunc ieee a b := by
    intro a ha b hb hm h
    have hK : ∀ t, t0 ≤ t → t ≤ t1 → 5100 ≤ |trackAt b t - trackAt a t| := by
      intro t h0 h1
      have e1 := track_error hm (hd' a ha) t h0 h1
      have e2 := h t h0 h1
      have e3 := abs_sub_le (trackAt b t) (trackAt a t) (f + r * t)
      linarith
    constructor
    · refine hfl b hb a ha ?_
      have := far_tracks_ge 5100 t0 t1 b a (hd' b hb) (hd' a ha) hK
      linarith
    · refine hfl a ha b hb ?_
      have := far_tracks_ge 5100 t0 t1 a b (hd' a ha) (hd' b hb)
        (fun t h0 h1 => by rw [abs_sub_comm]; exact hK t h0 h1)
      linarith
  refine C141_reported_partial ieee ratOrd_lawful ratOrd_lawful ratOrd_total ratOrd_total ieee_congr
    ieee_lt ieee_notLt exMap (listMap_sound _) on offs sig hone ?_ ?_ htwo ?_
  · intro a ha b hb sa sb
    have ma := hsig a ha sa
    have mb := hsig b hb sb
    obtain ⟨a0, a1, a2⟩ := hd' a (hsub a ha)
    obtain ⟨b0, b1, b2⟩ := hd' b (hsub b hb)
    have hρ0 : 0 ≤ ρ := (abs_nonneg _).trans ma.drift
    have hb' := C142_measurements_partial f r δ ρ (2 * (t1 - t0)) a b b0 (by
      have : |a.startTime - b.startTime| ≤ (t1 - t0) := by
        rw [abs_le]; constructor <;> linarith
      linarith) ma mb
    have hsq : ∀ x : ℚ, |x - r| ≤ ρ → (|r| - ρ) ^ 2 ≤ x ^ 2 := by
      intro x hx
      have h1 : |r| - ρ ≤ |x| := by
        have := abs_sub_abs_le_abs_sub r x
        rw [abs_sub_comm] at this
        linarith
      rw [← sq_abs x]
      exact pow_le_pow_left₀ (by linarith) h1 2
    have hsa := hsq _ ma.drift
    have hsb := hsq _ mb.drift
    have hden : (0 : ℚ) < 1 / 100000000 + 2 * (|r| - ρ) ^ 2 := by positivity
    have hq : 2 * ρ / (1 / 100000000 + a.driftRate ^ 2 + b.driftRate ^ 2) ≤
        2 * ρ / (1 / 100000000 + 2 * (|r| - ρ) ^ 2) :=
      div_le_div_of_nonneg_left (by linarith) hden (by linarith)
    have hq0 : 0 ≤ 2 * ρ / (1 / 100000000 + a.driftRate ^ 2 + b.driftRate ^ 2) := by positivity
    have hq2 := pow_le_pow_left₀ hq0 hq 2
    have hle : distanceFunc ideal a b ≤ 49 := by linarith
    have := (abs_le.1 (C142_float_distance_partial a b (hrange a (hsub a ha)) (hrange b (hsub b hb))
      (hclose a (hsub a ha) b (hsub b hb)))).2
    show decide (distanceFunc ieee a b < 50) = true
    rw [decide_eq_true_eq]
    linarith
  · intro a ha b hb hne
    show decide (distanceFunc ieee a b < 50) = false
    rw [decide_eq_false_iff_not, not_lt]
    cases sa : sig a with
    | true =>
      have sb : sig b = false := by
        cases hsb : sig b with
        | false => rfl
        | true => rw [sa, hsb] at hne; exact absurd rfl hne
      linarith [(hfar a (hsub a ha) b (hsub b hb) (hsig a ha sa) (hother b hb sb)).2]
    | false =>
      have sb : sig b = true := by
        cases hsb : sig b with
        | true => rfl
        | false => rw [sa, hsb] at hne; exact absurd rfl hne
      linarith [(hfar b (hsub b hb) a (hsub a ha) (hsig b hb sb) (hother a ha sa)).1]
  · intro off hoff' vs hvs
    have hS : ∀ x ∈ (on.flatMap fun sc => sc.hits.filter sig), x ∈ hitsOf [on] ∧ sig x = true := by
      intro x hx
      obtain ⟨sc, hsc, hx⟩ := List.mem_flatMap.1 hx
      obtain ⟨h1, h2⟩ := List.mem_filter.1 hx
      exact ⟨List.mem_flatMap.2 ⟨sc, by simpa using hsc, h1⟩, h2⟩
    have hSlen : (on.flatMap fun sc => sc.hits.filter sig).length ≤ on.length := by
      clear hsmall hvs htwo hS hsig hother hfar hrange hdur hsub hsub' hd' hclose hfl hon hoff
      induction on with
      | nil => simp
      | cons sc on ih =>
        have h1 := hone sc List.mem_cons_self
        have h2 := ih (fun s hs => hone s (List.mem_cons_of_mem _ hs))
        simp only [List.flatMap_cons, List.length_append, List.length_cons]
        omega
    generalize (on.flatMap fun sc => sc.hits.filter sig) = S at hS hvs htwo hSlen ⊢
    have hlen := hvs.length_eq
    have h50 : ∀ v ∈ vs, 509 / 10 ≤ v := by
      clear htwo hlen hSlen
      induction hvs with
      | nil => simp
      | cons hv _ ih =>
        intro v hv'
        rename_i x w _ _ _
        rcases List.mem_cons.1 hv' with rfl | hv'
        · obtain ⟨q1, q2⟩ := hS x List.mem_cons_self
          have := hfar x (hsub x q1) off (hsub' off hoff') (hsig x q1 q2) (hoff off hoff')
          rcases hv with h | h <;> rw [h]
          · exact this.1
          · exact this.2
        · exact ih (fun y hy => hS y (List.mem_cons_of_mem _ hy)) v hv'
    show decide (ieee.divF (vs.foldl ieee.addF ieee.zeroF) (ieee.natF S.length) < 50) = false
    rw [decide_eq_false_iff_not, not_lt, hlen]
    exact mean_far_float vs (by
      intro h
      rw [h, List.length_nil] at hlen
      omega) (by omega) h50

/-- The signal of `Isolated.lean`, measured to within 25 Hz and 0.05 Hz/s. -/
example : ∃ es, eventSearch ieee exMap (isoOn :: isoOff) = .ok es ∧
    (es.map Event.hits).filter (fun l => l.any isoSig) =
      [[exHit 8400 0 300 (1 / 2) 20, exHit (8400 + 3 / 10000) 600 250 (1 / 2) 22,
        exHit (8400 + 6 / 10000) 1200 300 (1 / 2) 21]] := by
  have hS : (isoOn.flatMap fun sc => sc.hits.filter isoSig) =
      [exHit 8400 0 300 (1 / 2) 20, exHit (8400 + 3 / 10000) 600 250 (1 / 2) 22,
        exHit (8400 + 6 / 10000) 1200 300 (1 / 2) 21] := by decide +kernel
  have hH : hitsOf [isoOn] = [exHit 8401 0 300 0 9, exHit 8400 0 300 (1 / 2) 20,
      exHit (8400 + 3 / 10000) 600 250 (1 / 2) 22, exHit (8400 + 6 / 10000) 1200 300 (1 / 2) 21,
      exHit 8401 1200 300 0 9] := rfl
  have hO : hitsOf isoOff = [exHit 8401 300 200 0 9] := rfl
  have hall : hitsOf (isoOn :: isoOff) = [exHit 8401 0 300 0 9, exHit 8400 0 300 (1 / 2) 20,
      exHit (8400 + 3 / 10000) 600 250 (1 / 2) 22, exHit (8400 + 6 / 10000) 1200 300 (1 / 2) 21,
      exHit 8401 1200 300 0 9, exHit 8401 300 200 0 9] := rfl
  have hfar : ∀ st len t : ℚ, 0 ≤ t → t ≤ 1500 →
      5100 + (25 + 1 / 20 * (1500 - 0)) ≤
        |trackAt (exHit 8401 st len 0 9) t - (8400000000 + 12 / 25 * t)| := by
    intro st len t h0 h1
    have : trackAt (exHit 8401 st len 0 9) t = 8401000000 := by
      show (8401 : ℚ) * 1000000 + 0 * (t - st) = _; ring
    rw [this, abs_of_nonneg (by linarith)]; linarith
  rw [← hS]
  refine C141_drifting_signal_float_partial 8400000000 (12 / 25) 25 (1 / 20) 0 1500 isoOn isoOff
    (by decide) (by norm_num) ?_ (by decide +kernel) isoSig (by decide +kernel) ?_ (by decide +kernel)
    (by decide +kernel) ?_ ?_ (by decide +kernel)
  · intro a ha
    rw [hall] at ha
    simp only [List.mem_cons, List.not_mem_nil, or_false] at ha
    rcases ha with rfl | rfl | rfl | rfl | rfl | rfl <;>
      exact ⟨by decide +kernel, by decide +kernel, by decide +kernel, by decide +kernel⟩
  · intro a ha hs
    rw [hH] at ha
    simp only [List.mem_cons, List.not_mem_nil, or_false] at ha
    rcases ha with rfl | rfl | rfl | rfl | rfl
    · exact absurd hs (by decide +kernel)
    · exact ⟨by decide +kernel, by decide +kernel⟩
    · exact ⟨by decide +kernel, by decide +kernel⟩
    · exact ⟨by decide +kernel, by decide +kernel⟩
    · exact absurd hs (by decide +kernel)
  · intro a ha hs t h0 h1
    rw [hH] at ha
    simp only [List.mem_cons, List.not_mem_nil, or_false] at ha
    rcases ha with rfl | rfl | rfl | rfl | rfl
    · exact hfar 0 300 t h0 h1
    · exact absurd hs (by decide +kernel)
    · exact absurd hs (by decide +kernel)
    · exact absurd hs (by decide +kernel)
    · exact hfar 1200 300 t h0 h1
  · intro a ha t h0 h1
    rw [hO] at ha
    rw [List.mem_singleton.1 ha]
    exact hfar 300 200 t h0 h1

end Bliss.Event
