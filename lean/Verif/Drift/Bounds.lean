import Verif.Drift.Lemmas2

/-! # When the CPU integrator leaves its buffers -/

namespace Bliss.Drift

theorem Buf.load_quiet {α : Type} (b : Buf α) (i : Int) : (b.load i).Quiet (fun _ => b i ≠ none) := by
  unfold Buf.load
  cases h : b i with
  | none => exact Or.inl rfl
  | some v => exact Or.inr ⟨v, rfl, by simp⟩

theorem Buf.store_quiet {α : Type} (b : Buf α) (i : Int) (v : α) :
    (b.store i v).Quiet (fun b' => ∀ j, b j = none → b' j = none) := by
  unfold Buf.store
  cases h : b i with
  | none => exact Or.inl rfl
  | some w =>
    refine Or.inr ⟨_, rfl, fun j hj => ?_⟩
    have : j ≠ i := by rintro rfl; rw [h] at hj; cases hj
    simp [this, hj]

theorem bump_quiet (flags flag : UInt8) (b : Buf UInt8) (p : Int) :
    (bump flags flag b p).Quiet (fun _ => True) := by
  unfold bump
  split
  · exact (Buf.load_quiet b p).bind fun v _ => by
      rcases Buf.store_quiet b p (v + 1) with h | ⟨b', h, _⟩
      · exact Or.inl h
      · exact Or.inr ⟨b', h, trivial⟩
  · exact Or.inr ⟨b, rfl, trivial⟩

section
variable {F S : Type} [Add F] [Div F] [IntCast F]

/-- Nothing is mapped outside the `D × N` plane. -/
def PlaneOut (D N : Nat) (a : Acc F) : Prop :=
  ∀ j : Int, (j < 0 ∨ (D : Int) * N ≤ j) → a.plane j = none

theorem channelBody_quiet (D N : Nat) (inp : Input F) (desmear : Int) (a : Acc F) (p : Ptrs)
    (h : PlaneOut D N a) :
    (channelBody inp desmear (a, p)).Quiet
      (fun st => PlaneOut D N st.1 ∧ st.2.plane = p.plane + 1) := by
  unfold channelBody
  refine (Buf.load_quiet _ _).bind fun cur _ => ?_
  refine (Buf.load_quiet _ _).bind fun x _ => ?_
  refine (Buf.store_quiet _ _ _).bind fun pl hpl => ?_
  refine (Buf.load_quiet _ _).bind fun flags _ => ?_
  refine (bump_quiet _ _ _ _).bind fun b1 _ => ?_
  refine (bump_quiet _ _ _ _).bind fun b2 _ => ?_
  refine (bump_quiet _ _ _ _).bind fun b3 _ => ?_
  exact Or.inr ⟨_, rfl, fun j hj => hpl j (h j hj), rfl⟩

theorem channelBody_ub (D N : Nat) (inp : Input F) (desmear : Int) (a : Acc F) (p : Ptrs)
    (h : PlaneOut D N a) (hp : p.plane < 0 ∨ (D : Int) * N ≤ p.plane) :
    channelBody inp desmear (a, p) = .ub := by
  unfold channelBody
  simp only [Buf.load_none (h _ hp), Outcome.bind_ub]

theorem addRange_quiet (D N : Nat) (inp : Input F) (desmear : Int) (i t : Nat) (lo hi s : Int)
    (a : Acc F) (h : PlaneOut D N a) :
    (addRange inp desmear i t lo hi s a).Quiet (PlaneOut D N) := by
  unfold addRange
  refine Outcome.Quiet.bind (forLoop_quiet
    (fun _ (st : Acc F × Ptrs) => PlaneOut D N st.1) h ?_) ?_
  · rintro k ⟨a, p⟩ _ hk
    rcases channelBody_quiet D N inp desmear a p hk with h1 | ⟨st, h1, h2, _⟩
    · exact Or.inl h1
    · exact Or.inr ⟨st, h1, h2⟩
  · rintro ⟨a, p⟩ hk
    exact Or.inr ⟨a, rfl, hk⟩

/-- A negative element count becomes a huge trip count and runs off the plane. -/
theorem addRange_ub (D : Nat) (inp : Input F) (desmear : Int) (i t : Nat) (lo hi s : Int)
    (a : Acc F) (hout : PlaneOut D inp.numChannels a) (hi' : i < D) (hlo : 0 ≤ lo)
    (hneg : hi < lo) (hsmall : (D : Int) * inp.numChannels + lo - hi < 2 ^ 64) :
    addRange inp desmear i t lo hi s a = .ub := by
  unfold addRange
  have htrip : tripCount (hi - lo) = (hi - lo + 2 ^ 64).toNat := by
    unfold tripCount; rw [if_neg (by omega)]
  have hrow : 0 ≤ (i : Int) * inp.numChannels := Int.mul_nonneg (by omega) (by omega)
  have hDN : 0 ≤ (D : Int) * inp.numChannels := Int.mul_nonneg (by omega) (by omega)
  have hub : forLoop (tripCount (hi - lo)) (fun _ st => channelBody inp desmear st)
      (a, ({ plane := (i : Int) * inp.numChannels + lo,
             spec := t * inp.specStride0 + s * inp.specStride1,
             lowsk := (i : Int) * inp.numChannels + lo,
             highsk := (i : Int) * inp.numChannels + lo,
             rolloff := (i : Int) * inp.numChannels + lo,
             rfi := t * inp.rfiStride0 + s * inp.rfiStride1 } : Ptrs)) = .ub := by
    refine forLoop_ub (fun k (st : Acc F × Ptrs) => PlaneOut D inp.numChannels st.1 ∧
        st.2.plane = (i : Int) * inp.numChannels + lo + k) ⟨hout, by simp⟩ ?_
      (k := ((D : Int) * inp.numChannels - ((i : Int) * inp.numChannels + lo)).toNat) ?_ ?_
    · rintro k ⟨a, p⟩ _ ⟨h1, h2⟩
      rcases channelBody_quiet D _ inp desmear a p h1 with h3 | ⟨st, h3, h4, h5⟩
      · exact Or.inl h3
      · refine Or.inr ⟨st, h3, h4, ?_⟩
        have h2' : p.plane = (i : Int) * inp.numChannels + lo + k := h2
        rw [h5, h2']; push_cast; omega
    · rw [htrip]; omega
    · rintro ⟨a, p⟩ ⟨h1, h2⟩
      have h2' : p.plane = _ := h2
      exact channelBody_ub D _ inp desmear a p h1 (by omega)
  simp only [hub, Outcome.bind_ub]

theorem desmearBody_quiet (ops : SlopeOps S) (D N : Nat) (inp : Input F) (r : Rate S) (i t : Nat)
    (off : Int) (k : Nat) (a : Acc F) (h : PlaneOut D N a) :
    (desmearBody ops inp r i t off k a).Quiet (PlaneOut D N) := by
  unfold desmearBody
  simp only
  split
  · exact addRange_quiet _ _ _ _ _ _ _ _ _ _ h
  · split <;> exact addRange_quiet _ _ _ _ _ _ _ _ _ _ h

theorem desmearBody_ub (ops : SlopeOps S) (D : Nat) (inp : Input F) (r : Rate S) (i t : Nat)
    (off : Int) (k : Nat) (a : Acc F) (hout : PlaneOut D inp.numChannels a) (hi : i < D)
    (hsign : if ops.nonneg r.slope then 0 ≤ off else 0 ≤ -r.span ∧ off ≤ 0)
    (hsmall : (D : Int) * inp.numChannels + off.natAbs + k + r.span.natAbs < 2 ^ 63)
    (hbad : ¬ FitsAt inp.numChannels (ops.nonneg r.slope) r.span off k) :
    desmearBody ops inp r i t off k a = .ub := by
  have hDN : 0 ≤ (D : Int) * inp.numChannels := Int.mul_nonneg (by omega) (by omega)
  unfold desmearBody
  cases hup : ops.nonneg r.slope with
  | true =>
    simp only [hup, FitsAt, if_true] at hbad hsign ⊢
    exact addRange_ub D inp _ i t _ _ _ a hout hi (by omega) (by omega) (by omega)
  | false =>
    simp only [hup, FitsAt, Bool.false_eq_true, if_false] at hbad hsign ⊢
    split
    · exact addRange_ub D inp _ i t _ _ _ a hout hi (by omega) (by omega) (by omega)
    · exact addRange_ub D inp _ i t _ _ _ a hout hi (by omega) (by omega) (by omega)

theorem timeBody_quiet (ops : SlopeOps S) (D N : Nat) (inp : Input F) (r : Rate S) (i t : Nat)
    {o : Int} (ho : ops.offAt r.slope t = .ok o) (a : Acc F) (h : PlaneOut D N a) :
    (timeBody ops inp r i t a).Quiet (PlaneOut D N) := by
  unfold timeBody
  rw [ho, Outcome.bind_ok]
  exact forLoop_quiet (fun _ a => PlaneOut D N a) h
    (fun k a _ hk => desmearBody_quiet ops D N inp r i t o k a hk)

theorem driftBody_quiet (ops : SlopeOps S) (D N : Nat) (inp : Input F) (r : Rate S) (i : Nat)
    {off : Nat → Int} (ho : ∀ t < inp.timeSteps, ops.offAt r.slope t = .ok (off t)) (a : Acc F)
    (h : PlaneOut D N a) : (driftBody ops inp r i a).Quiet (PlaneOut D N) := by
  unfold driftBody
  exact forLoop_quiet (fun _ a => PlaneOut D N a) h
    (fun t a ht hk => timeBody_quiet ops D N inp r i t (ho t ht) a hk)

theorem driftBody_ub (ops : SlopeOps S) (D : Nat) (inp : Input F) (r : Rate S) (i : Nat)
    {off : Nat → Int} (ho : ∀ t < inp.timeSteps, ops.offAt r.slope t = .ok (off t)) (a : Acc F)
    (hout : PlaneOut D inp.numChannels a) (hi : i < D) {t k : Nat} (ht : t < inp.timeSteps)
    (hk : k < r.desmear.toNat)
    (hsign : if ops.nonneg r.slope then 0 ≤ off t else 0 ≤ -r.span ∧ off t ≤ 0)
    (hsmall : (D : Int) * inp.numChannels + (off t).natAbs + k + r.span.natAbs < 2 ^ 63)
    (hbad : ¬ FitsAt inp.numChannels (ops.nonneg r.slope) r.span (off t) k) :
    driftBody ops inp r i a = .ub := by
  unfold driftBody
  refine forLoop_ub (fun _ a => PlaneOut D inp.numChannels a) hout
    (fun t a ht hk => timeBody_quiet ops D _ inp r i t (ho t ht) a hk) ht ?_
  intro a ha
  unfold timeBody
  rw [ho t ht, Outcome.bind_ok]
  exact forLoop_ub (fun _ a => PlaneOut D inp.numChannels a) ha
    (fun k a _ hk => desmearBody_quiet ops D _ inp r i t (off t) k a hk) hk
    (fun a ha => desmearBody_ub ops D inp r i t (off t) k a ha hi hsign hsmall hbad)

theorem integrate_ub [Zero F] (ops : SlopeOps S) (inp : Input F) (rates : List (Rate S))
    {off : Nat → Nat → Int} (ho : OffsetsAre ops rates inp.timeSteps off)
    {i : Nat} {r : Rate S} (hr : rates[i]? = some r) {t k : Nat} (ht : t < inp.timeSteps)
    (hk : k < r.desmear.toNat)
    (hsign : if ops.nonneg r.slope then 0 ≤ off i t else 0 ≤ -r.span ∧ off i t ≤ 0)
    (hsmall : (rates.length : Int) * inp.numChannels + (off i t).natAbs + k + r.span.natAbs < 2 ^ 63)
    (hbad : ¬ FitsAt inp.numChannels (ops.nonneg r.slope) r.span (off i t) k) :
    integrateCpu ops inp rates = .ub := by
  unfold integrateCpu
  have hi : i < rates.length := by
    by_contra h
    rw [List.getElem?_eq_none (by omega)] at hr
    cases hr
  have hub : forLoop rates.length (rateBody ops inp rates)
      (initAcc rates.length inp.numChannels) = .ub := by
    refine forLoop_ub (fun _ (a : Acc F) => PlaneOut rates.length inp.numChannels a)
      (initAcc_rep rates.length inp.numChannels).plane.out ?_ hi ?_
    · intro j a hj ha
      have hrj : rates[j]? = some rates[j] := List.getElem?_eq_getElem hj
      simp only [rateBody, hrj]
      exact driftBody_quiet ops _ _ inp _ j (ho j _ hrj) a ha
    · intro a ha
      simp only [rateBody, hr]
      exact driftBody_ub ops _ inp r i (ho i _ hr) a ha hi ht hk hsign hsmall hbad
  rw [hub]; rfl

end

end Bliss.Drift
