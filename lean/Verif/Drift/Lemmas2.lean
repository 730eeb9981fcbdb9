import Verif.Drift.Lemmas
import Mathlib.Tactic.ByContra

/-! # The loop nest of the CPU integrator refines the per-cell path sums -/

namespace Bliss.Drift

/-- Effect of one sample on a cell: `f` consumes the sample's (time, channel) if it is kept. -/
def stepCell {α : Type} (f : Nat × Int → α → α) (N : Nat) (up : Bool) (span : Int) (t : Nat)
    (off : Int) (k : Nat) (c : Int) (x : α) : α :=
  match pathChannel N up span off k c with
  | some ch => f (t, ch) x
  | none => x

/-- Row `i` of the grid is transformed cell by cell by `g`; other rows are unchanged. -/
def onRow {α : Type} (i : Nat) (g : Int → α → α) (P : Nat → Int → α) : Nat → Int → α :=
  fun i' c' => if i' = i then g c' (P i' c') else P i' c'

theorem onRow_onRow {α : Type} (i : Nat) (g h : Int → α → α) (P : Nat → Int → α) :
    onRow i h (onRow i g P) = onRow i (fun c x => h c (g c x)) P := by
  funext i' c'; unfold onRow; by_cases e : i' = i <;> simp [e]

/-- Consume a whole list of samples. -/
def consume {α : Type} (f : Nat × Int → α → α) (l : List (Nat × Int)) (x : α) : α :=
  l.foldl (fun acc s => f s acc) x

theorem consume_append {α : Type} (f : Nat × Int → α → α) (l l' : List (Nat × Int)) (x : α) :
    consume f (l ++ l') x = consume f l' (consume f l x) := by simp [consume]

/-- Samples of one time step, first `d` desmear bins. -/
def timeSamples (N : Nat) (up : Bool) (span : Int) (t : Nat) (off : Int) (d : Nat) (c : Int) :
    List (Nat × Int) :=
  (List.range d).filterMap fun k => (pathChannel N up span off k c).map fun ch => (t, ch)

theorem timeSamples_succ {α : Type} (f : Nat × Int → α → α) (N : Nat) (up : Bool) (span : Int)
    (t : Nat) (off : Int) (d : Nat) (c : Int) (x : α) :
    consume f (timeSamples N up span t off (d + 1) c) x =
      stepCell f N up span t off d c (consume f (timeSamples N up span t off d c) x) := by
  unfold timeSamples stepCell
  rw [List.range_succ, List.filterMap_append, consume_append]
  cases h : pathChannel N up span off d c <;> simp [h, consume]

theorem timeSamples_succ' {α : Type} (f : Nat × Int → α → α) (N : Nat) (up : Bool) (span : Int)
    (t : Nat) (off : Int) (d : Nat) (c : Int) :
    consume f (timeSamples N up span t off (d + 1) c) = fun x =>
      stepCell f N up span t off d c (consume f (timeSamples N up span t off d c) x) :=
  funext fun x => timeSamples_succ f N up span t off d c x

theorem consume_append' {α : Type} (f : Nat × Int → α → α) (l l' : List (Nat × Int)) :
    consume f (l ++ l') = fun x => consume f l' (consume f l x) :=
  funext fun x => consume_append f l l' x

theorem path_eq (N T : Nat) (up : Bool) (span : Int) (d : Nat) (off : Nat → Int) (c : Int) :
    path N T up span d off c =
      (List.range T).flatMap fun t => timeSamples N up span t (off t) d c := rfl

theorem path_succ (N T : Nat) (up : Bool) (span : Int) (d : Nat) (off : Nat → Int) (c : Int) :
    path N (T + 1) up span d off c =
      path N T up span d off c ++ timeSamples N up span T (off T) d c := by
  rw [path_eq, path_eq, List.range_succ, List.flatMap_append]; simp

/-- Consumer of the float plane. -/
def useF {F : Type} [Add F] [Div F] [IntCast F] (grid : Nat → Int → F) (desmear : Int) :
    Nat × Int → F → F := fun s x => x + grid s.1 s.2 / (desmear : F)

/-- Consumer of a counter. -/
def useC (mask : Nat → Int → UInt8) (flag : UInt8) : Nat × Int → UInt8 → UInt8 :=
  fun s x => if mask s.1 s.2 &&& flag ≠ 0 then x + 1 else x

theorem consume_useC (mask : Nat → Int → UInt8) (flag : UInt8) (l : List (Nat × Int)) (x : UInt8) :
    consume (useC mask flag) l x = x + UInt8.ofNat (pathFlags mask flag l) := by
  induction l generalizing x with
  | nil => simp [consume, pathFlags]
  | cons s l ih =>
    have h1 : consume (useC mask flag) (s :: l) x =
        consume (useC mask flag) l (useC mask flag s x) := rfl
    rw [h1, ih]
    unfold useC pathFlags
    by_cases h : mask s.1 s.2 &&& flag = 0
    · simp [h]
    · rw [List.countP_cons_of_pos (by simpa using h), UInt8.ofNat_add]
      simp only [ne_eq, h, not_false_eq_true, if_true, UInt8.add_assoc]
      congr 1
      exact UInt8.add_comm _ _

section
variable {F S : Type} [Add F] [Div F] [IntCast F]

theorem onRange_eq_stepCell_up {α : Type} (g : Int → α → α) (f : Nat × Int → α → α) (N : Nat)
    (span : Int) (t i : Nat) (off : Int) (k : Nat)
    (hg : ∀ c x, g c x = f (t, c + (off + k)) x) (P : Nat → Int → α) (i' : Nat) (c : Int)
    (hc : 0 ≤ c) :
    onRange g i 0 ((N : Int) - (off + k)) P i' c =
      onRow i (stepCell f N true span t off k) P i' c := by
  unfold onRange onRow stepCell pathChannel
  by_cases e : i' = i
  · by_cases h : c + off + k < N
    · have h1 : i' = i ∧ 0 ≤ c ∧ c < (N : Int) - (off + k) := by omega
      have h2 : c + (off + k) = c + off + k := by omega
      rw [if_pos h1, if_pos e, hg, h2]
      simp [h]
    · have h1 : ¬ (i' = i ∧ 0 ≤ c ∧ c < (N : Int) - (off + k)) := by omega
      rw [if_neg h1, if_pos e]
      simp [h]
  · have h1 : ¬ (i' = i ∧ 0 ≤ c ∧ c < (N : Int) - (off + k)) := by simp [e]
    rw [if_neg h1, if_neg e]

theorem onRange_eq_stepCell_down {α : Type} (g : Int → α → α) (f : Nat × Int → α → α) (N : Nat)
    (span lo : Int) (t i : Nat) (off : Int) (k : Nat)
    (hg : ∀ c x, g c x = f (t, c + (off - k)) x) (P : Nat → Int → α) (i' : Nat) (c : Int)
    (hcN : c < N) (hlo : (lo ≤ c) ↔ (-span ≤ c ∧ 0 ≤ c + off - k)) :
    onRange g i lo (N : Int) P i' c =
      onRow i (stepCell f N false span t off k) P i' c := by
  unfold onRange onRow stepCell pathChannel
  by_cases e : i' = i
  · by_cases h : -span ≤ c ∧ 0 ≤ c + off - k
    · have h1 : i' = i ∧ lo ≤ c ∧ c < (N : Int) := ⟨e, hlo.mpr h, hcN⟩
      have h2 : c + (off - k) = c + off - k := by omega
      rw [if_pos h1, if_pos e, hg, h2]
      simp only [Bool.false_eq_true, if_false, if_pos h]
    · have h1 : ¬ (i' = i ∧ lo ≤ c ∧ c < (N : Int)) := fun ⟨_, h3, _⟩ => h (hlo.mp h3)
      rw [if_neg h1, if_pos e]
      simp only [Bool.false_eq_true, if_false, if_neg h]
  · have h1 : ¬ (i' = i ∧ lo ≤ c ∧ c < (N : Int)) := by simp [e]
    rw [if_neg h1, if_neg e]

/-- The four grids after transforming row `i` with the four consumers' `g`. -/
def RepRow (D N : Nat) (a : Acc F) (i : Nat) (P : Nat → Int → F) (L H R : Nat → Int → UInt8)
    (grid : Nat → Int → F) (mask : Nat → Int → UInt8) (desmear : Int)
    (samples : Int → List (Nat × Int)) : Prop :=
  Rep D N a (onRow i (fun c => consume (useF grid desmear) (samples c)) P)
    (onRow i (fun c => consume (useC mask flagLowSK) (samples c)) L)
    (onRow i (fun c => consume (useC mask flagHighSK) (samples c)) H)
    (onRow i (fun c => consume (useC mask flagRolloff) (samples c)) R)

/-- What `Fits` says about a single time step and desmear bin. -/
def FitsAt (N : Nat) (up : Bool) (span : Int) (off : Int) (k : Nat) : Prop :=
  if up then 0 ≤ off ∧ off + k ≤ N
  else 0 ≤ -span ∧ -span ≤ N ∧ off ≤ 0 ∧ -off + k ≤ N

theorem desmearBody_rep {ops : SlopeOps S} {D : Nat} {inp : Input F} {grid : Nat → Int → F}
    {mask : Nat → Int → UInt8} (hh : HoldsRaw inp grid mask) {r : Rate S} {i t : Nat}
    (hi : i < D) (ht : t < inp.timeSteps) {off : Int} {k : Nat}
    (hfit : FitsAt inp.numChannels (ops.nonneg r.slope) r.span off k)
    {a : Acc F} {P : Nat → Int → F} {L H R : Nat → Int → UInt8}
    (hr : Rep D inp.numChannels a P L H R) :
    ∃ a', desmearBody ops inp r i t off k a = .ok a' ∧
      Rep D inp.numChannels a'
        (onRow i (stepCell (useF grid r.desmear) inp.numChannels (ops.nonneg r.slope) r.span t off k) P)
        (onRow i (stepCell (useC mask flagLowSK) inp.numChannels (ops.nonneg r.slope) r.span t off k) L)
        (onRow i (stepCell (useC mask flagHighSK) inp.numChannels (ops.nonneg r.slope) r.span t off k) H)
        (onRow i (stepCell (useC mask flagRolloff) inp.numChannels (ops.nonneg r.slope) r.span t off k)
          R) := by
  unfold desmearBody
  cases hup : ops.nonneg r.slope with
  | true =>
    rw [hup] at hfit
    simp only [FitsAt, if_true] at hfit
    obtain ⟨a', ha', hrep⟩ := addRange_rep hh (desmear := r.desmear) hi ht (lo := 0)
      (hi' := (inp.numChannels : Int) - (off + k)) (s := off + k)
      (by omega) (by omega) (by omega) (by omega) (by omega) hr
    refine ⟨a', by simpa using ha', hrep.plane.congr ?_, hrep.lowsk.congr ?_,
      hrep.highsk.congr ?_, hrep.rolloff.congr ?_⟩
    all_goals
      intro i' c _ hc hcN
      refine onRange_eq_stepCell_up _ _ _ _ _ _ _ _ ?_ _ _ _ hc
      intro c x
      simp [addF, addC, useF, useC]
  | false =>
    rw [hup] at hfit
    simp only [FitsAt, Bool.false_eq_true, if_false] at hfit
    obtain ⟨f1, f2, f3, f4⟩ := hfit
    by_cases hneg : -r.span + (off - k) < 0
    · obtain ⟨a', ha', hrep⟩ := addRange_rep hh (desmear := r.desmear) hi ht
        (lo := -r.span - (-r.span + (off - k))) (hi' := (inp.numChannels : Int))
        (s := -r.span + (off - k) - (-r.span + (off - k)))
        (by omega) (by omega) (by omega) (by omega) (by omega) hr
      refine ⟨a', by simpa [hneg] using ha', hrep.plane.congr ?_, hrep.lowsk.congr ?_,
        hrep.highsk.congr ?_, hrep.rolloff.congr ?_⟩
      all_goals
        intro i' c _ hc hcN
        refine onRange_eq_stepCell_down _ _ _ _ _ _ _ _ _ ?_ _ _ _ hcN (by omega)
        intro c x
        have e : c + (-r.span + (off - k) - (-r.span + (off - k)) -
          (-r.span - (-r.span + (off - k)))) = c + (off - k) := by omega
        simp only [addF, addC, useF, useC, e]
    · obtain ⟨a', ha', hrep⟩ := addRange_rep hh (desmear := r.desmear) hi ht
        (lo := -r.span) (hi' := (inp.numChannels : Int)) (s := -r.span + (off - k))
        (by omega) (by omega) (by omega) (by omega) (by omega) hr
      refine ⟨a', by simpa [hneg] using ha', hrep.plane.congr ?_, hrep.lowsk.congr ?_,
        hrep.highsk.congr ?_, hrep.rolloff.congr ?_⟩
      all_goals
        intro i' c _ hc hcN
        refine onRange_eq_stepCell_down _ _ _ _ _ _ _ _ _ ?_ _ _ _ hcN (by omega)
        intro c x
        have e : c + (-r.span + (off - k) - (-r.span)) = c + (off - k) := by omega
        simp only [addF, addC, useF, useC, e]

theorem desmearLoop_rep {ops : SlopeOps S} {D : Nat} {inp : Input F} {grid : Nat → Int → F}
    {mask : Nat → Int → UInt8} (hh : HoldsRaw inp grid mask) {r : Rate S} {i t : Nat}
    (hi : i < D) (ht : t < inp.timeSteps) {off : Int} {d : Nat}
    (hfit : ∀ k < d, FitsAt inp.numChannels (ops.nonneg r.slope) r.span off k)
    {a : Acc F} {P : Nat → Int → F} {L H R : Nat → Int → UInt8}
    (hr : Rep D inp.numChannels a P L H R) :
    ∃ a', forLoop d (fun k a => desmearBody ops inp r i t off k a) a = .ok a' ∧
      RepRow D inp.numChannels a' i P L H R grid mask r.desmear
        (timeSamples inp.numChannels (ops.nonneg r.slope) r.span t off d) := by
  refine forLoop_inv (fun d a' => RepRow D inp.numChannels a' i P L H R grid mask r.desmear
        (timeSamples inp.numChannels (ops.nonneg r.slope) r.span t off d)) ?_ ?_
  · refine ⟨hr.plane.congr ?_, hr.lowsk.congr ?_, hr.highsk.congr ?_, hr.rolloff.congr ?_⟩ <;>
    · intro i' c _ _ _
      simp [onRow, timeSamples, consume]
  · intro k a1 hk hrep
    obtain ⟨a2, ha2, hrep2⟩ := desmearBody_rep hh hi ht (hfit k hk) hrep
    refine ⟨a2, ha2, ?_⟩
    simp only [onRow_onRow] at hrep2
    unfold RepRow
    simpa only [timeSamples_succ'] using hrep2

theorem driftBody_rep {ops : SlopeOps S} {D : Nat} {inp : Input F} {grid : Nat → Int → F}
    {mask : Nat → Int → UInt8} (hh : HoldsRaw inp grid mask) {r : Rate S} {i : Nat}
    (hi : i < D) {off : Nat → Int}
    (hoff : ∀ t < inp.timeSteps, ops.offAt r.slope t = .ok (off t))
    (hfit : ∀ t < inp.timeSteps, ∀ k < r.desmear.toNat,
      FitsAt inp.numChannels (ops.nonneg r.slope) r.span (off t) k)
    {a : Acc F} {P : Nat → Int → F} {L H R : Nat → Int → UInt8}
    (hr : Rep D inp.numChannels a P L H R) :
    ∃ a', driftBody ops inp r i a = .ok a' ∧
      RepRow D inp.numChannels a' i P L H R grid mask r.desmear
        (path inp.numChannels inp.timeSteps (ops.nonneg r.slope) r.span r.desmear.toNat off) := by
  unfold driftBody
  refine forLoop_inv (fun T a' => RepRow D inp.numChannels a' i P L H R grid mask r.desmear
        (path inp.numChannels T (ops.nonneg r.slope) r.span r.desmear.toNat off)) ?_ ?_
  · refine ⟨hr.plane.congr ?_, hr.lowsk.congr ?_, hr.highsk.congr ?_, hr.rolloff.congr ?_⟩ <;>
    · intro i' c _ _ _
      simp [onRow, path, consume]
  · intro t a1 ht hrep
    obtain ⟨a2, ha2, hrep2⟩ := desmearLoop_rep hh hi ht (hfit t ht) hrep
    refine ⟨a2, by simp only [timeBody, hoff t ht, Outcome.bind_ok, ha2], ?_⟩
    unfold RepRow at hrep2 ⊢
    simp only [onRow_onRow] at hrep2
    simpa only [path_succ, consume_append'] using hrep2

/-- Every rate of the list has well-defined offsets. -/
def OffsetsAre {S : Type} (ops : SlopeOps S) (rates : List (Rate S)) (T : Nat)
    (off : Nat → Nat → Int) : Prop :=
  ∀ i r, rates[i]? = some r → ∀ t < T, ops.offAt r.slope t = .ok (off i t)

theorem Fits.at {N T : Nat} {up : Bool} {span desmear : Int} {off : Nat → Int}
    (h : Fits N T up span desmear off) {t : Nat} (ht : t < T) {k : Nat} (hk : k < desmear.toNat) :
    FitsAt N up span (off t) k := by
  unfold Fits at h
  unfold FitsAt
  cases up with
  | true => simp only [if_true] at h ⊢; have := h t ht; omega
  | false =>
    simp only [Bool.false_eq_true, if_false] at h ⊢
    obtain ⟨h1, h2, h3⟩ := h; have := h3 t ht; omega

theorem initAcc_rep [Zero F] (D N : Nat) :
    Rep D N (initAcc D N : Acc F) (fun _ _ => 0) (fun _ _ => 0) (fun _ _ => 0)
      (fun _ _ => 0) := by
  have key : ∀ {α : Type} (z : α), Rep1 D N (Buf.ofFn ((D : Int) * N) (fun _ => z))
      (fun _ _ => z) := by
    intro α z
    constructor
    · intro i c hi hc hN
      have := row_idx_bound (c := c) hi hc hN
      simp [Buf.ofFn, this]
    · intro j hj
      unfold Buf.ofFn
      rw [if_neg (by omega)]
  exact ⟨key _, key _, key _, key _⟩

theorem integrate_rep [Zero F] {ops : SlopeOps S} {inp : Input F} {grid : Nat → Int → F}
    {mask : Nat → Int → UInt8} (hh : HoldsRaw inp grid mask) {rates : List (Rate S)}
    {off : Nat → Nat → Int} (hoff : OffsetsAre ops rates inp.timeSteps off)
    (hfit : ∀ i r, rates[i]? = some r →
      Fits inp.numChannels inp.timeSteps (ops.nonneg r.slope) r.span r.desmear (off i)) :
    ∃ a, integrateCpu ops inp rates = .ok a ∧ ∀ i r, rates[i]? = some r →
      ∀ c : Int, 0 ≤ c → c < inp.numChannels →
      let p := path inp.numChannels inp.timeSteps (ops.nonneg r.slope) r.span
        r.desmear.toNat (off i) c
      a.plane (i * inp.numChannels + c) =
          some (pathSum grid r.desmear p / ((inp.timeSteps : Int) : F)) ∧
        a.lowsk (i * inp.numChannels + c) = some (UInt8.ofNat (pathFlags mask flagLowSK p)) ∧
        a.highsk (i * inp.numChannels + c) = some (UInt8.ofNat (pathFlags mask flagHighSK p)) ∧
        a.rolloff (i * inp.numChannels + c) =
          some (UInt8.ofNat (pathFlags mask flagRolloff p)) := by
  unfold integrateCpu
  let pth : Nat → Int → List (Nat × Int) := fun i c =>
    match rates[i]? with
    | some r => path inp.numChannels inp.timeSteps (ops.nonneg r.slope) r.span
        r.desmear.toNat (off i) c
    | none => []
  let dsm : Nat → Int := fun i => match rates[i]? with | some r => r.desmear | none => 0
  obtain ⟨a, ha, hrep⟩ := forLoop_inv (n := rates.length)
    (body := rateBody ops inp rates) (s := (initAcc rates.length inp.numChannels : Acc F))
    (fun n a => Rep rates.length inp.numChannels a
      (fun i c => if i < n then consume (useF grid (dsm i)) (pth i c) 0 else 0)
      (fun i c => if i < n then consume (useC mask flagLowSK) (pth i c) 0 else 0)
      (fun i c => if i < n then consume (useC mask flagHighSK) (pth i c) 0 else 0)
      (fun i c => if i < n then consume (useC mask flagRolloff) (pth i c) 0 else 0))
    (by simpa using initAcc_rep rates.length inp.numChannels)
    (by
      intro i a hi hrep
      have hri : rates[i]? = some rates[i] := List.getElem?_eq_getElem hi
      obtain ⟨a', ha', hrep'⟩ := driftBody_rep hh hi (hoff i _ hri)
        (fun t ht k hk => (hfit i _ hri).at ht hk) hrep
      refine ⟨a', by simpa [rateBody, hri] using ha', hrep'.plane.congr ?_, hrep'.lowsk.congr ?_,
        hrep'.highsk.congr ?_, hrep'.rolloff.congr ?_⟩ <;>
      · intro i' c _ _ _
        unfold onRow
        by_cases e : i' = i
        · subst e
          simp [pth, dsm, hri]
        · simp only [e, if_false]
          by_cases h1 : i' < i
          · rw [if_pos h1, if_pos (by omega)]
          · rw [if_neg h1, if_neg (by omega)])
  refine ⟨{ a with plane := fun j => (a.plane j).map (fun x => x / ((inp.timeSteps : Int) : F)) },
    by simp [ha], ?_⟩
  intro i r hr c hc hN
  have hi : i < rates.length := by
    by_contra h
    rw [List.getElem?_eq_none (by omega)] at hr
    cases hr
  have h0 := hrep.plane.val i c hi hc hN
  have h1 := hrep.lowsk.val i c hi hc hN
  have h2 := hrep.highsk.val i c hi hc hN
  have h3 := hrep.rolloff.val i c hi hc hN
  simp only [hi, if_true, pth, dsm, hr, consume_useC, UInt8.zero_add] at h0 h1 h2 h3
  refine ⟨?_, h1, h2, h3⟩
  simp only [h0, Option.map_some]
  rfl

end

end Bliss.Drift
