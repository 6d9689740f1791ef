import Verif.Lemmas.Fed
import Verif.IEEE.Value
import Verif.Exact.XR
/-!
# When the Kalman predictor predicts
-/
namespace Ink
open Scalar Arith

set_option linter.unusedSectionVars false

section Any
variable {F D : Type} [Scalar F] [Scalar D] [Arith F D]

/-- Rounding a number that is at least one to an integer gives at least one. -/
class RoundsUp (F : Type) [Scalar F] : Prop where
  one_le : ∀ {x : F} {n : Int}, toInt (fmax x 1) = .ok n → 1 ≤ n

theorem KalmanOf.isStable {k : KalmanParams F D} {s : SamplingParams F D} {cs : List (Vec2 F × D)} {q : KalmanPredictor F D}
    (h : KalmanOf k s cs q) : q.isStable = decide (k.minStableIteration ≤ cs.length) := by
  simp [KalmanPredictor.isStable, KalmanFilter.stable, h.iterX, h.iterY, h.stableX, h.stableY]

theorem KalmanOf.estimated {k : KalmanParams F D} {s : SamplingParams F D} {cs : List (Vec2 F × D)} {q : KalmanPredictor F D}
    (h : KalmanOf k s cs q) (hk : 0 < k.maxTimeSamples) (hc : cs ≠ []) :
    (cs.length < k.minStableIteration → q.getEstimatedState = none) ∧
    (k.minStableIteration ≤ cs.length → ∃ est x, q.getEstimatedState = some est ∧ q.lastPositionReceived = some x) := by
  unfold KalmanPredictor.getEstimatedState
  rw [h.isStable]
  refine ⟨fun hs => by simp [hs], fun hs => ?_⟩
  have hne : q.sampleTimes ≠ [] := by
    intro hn
    have hl := congrArg List.length h.times
    have : 0 < cs.length := List.length_pos_iff.2 hc
    simp [hn, lastN] at hl
    omega
  obtain ⟨a, ha⟩ := Option.isSome_iff_exists.1 (List.isSome_head?.2 hne)
  obtain ⟨b, hb⟩ := Option.isSome_iff_exists.1 (Option.ne_none_iff_isSome.1 (List.getLast?_eq_none_iff.not.2 hne))
  obtain ⟨c, hc'⟩ := Option.isSome_iff_exists.1 (Option.ne_none_iff_isSome.1 (List.getLast?_eq_none_iff.not.2 hc))
  simp only [hs, decide_true, Bool.not_true, Bool.false_eq_true, ↓reduceIte, ha, hb, h.last, hc']
  exact ⟨_, _, rfl, rfl⟩

theorem connectorGo_length (cu : KalmanPredictor.Cubic F) (t d : D) (fd : F) (n : Int) (k : ℕ) (i : Int) :
    (KalmanPredictor.connectorGo cu t d fd n k i).length = k := by
  induction k generalizing i with
  | zero => rfl
  | succ k ih => simp [KalmanPredictor.connectorGo, ih]

theorem cubicConnector_ne [RoundsUp F] {last : TipState F D} {est : KalmanState F} {k : KalmanParams F D} {dt : D}
    {l : List (TipState F D)} (h : KalmanPredictor.cubicConnector last est k dt = .ok l) : l ≠ [] := by
  unfold KalmanPredictor.cubicConnector at h
  obtain ⟨n, hn, h⟩ := Outcome.bind_eq_ok.1 h
  simp only [Outcome.pure_eq, Outcome.ok.injEq] at h
  have h1 : 1 ≤ n := RoundsUp.one_le hn
  intro hl
  have := congrArg List.length (h.trans hl)
  rw [connectorGo_length] at this
  simp at this
  omega

/-- An Up ends the stroke. -/
theorem Course.no_up {p : StrokeModelParams F D} {es : List (Event F D)} {m : StrokeModeler F D} (h : Course p es m)
    (hl : m.lastInput ≠ none) : ∀ e ∈ es, e.input.eventType ≠ .up := by
  induction h with
  | down _ he => simp [he]
  | move hm hl' he _ _ _ _ _ _ ih =>
    simp only [List.mem_append, List.mem_singleton, or_imp, forall_and, forall_eq]
    exact ⟨ih (by simp [hl']), by simp [he]⟩
  | late hm hl' he _ _ _ _ ih =>
    simp only [List.mem_append, List.mem_singleton, or_imp, forall_and, forall_eq]
    exact ⟨ih (by simp [hl']), by simp [he]⟩
  | up => simp at hl

theorem Course.fedInputs_eq {p : StrokeModelParams F D} {es : List (Event F D)} {m : StrokeModeler F D} (h : Course p es m)
    (hl : m.lastInput ≠ none) : fedInputs es = acceptedOf es := by
  unfold fedInputs acceptedOf
  rw [List.filter_eq_self]
  intro i hi
  obtain ⟨e, he, rfl⟩ := List.mem_map.1 hi
  simpa using h.no_up hl e (List.mem_of_mem_filter he)

theorem Course.down_accepted {p : StrokeModelParams F D} {es : List (Event F D)} {m : StrokeModeler F D} (h : Course p es m) :
    fedInputs es ≠ [] := by
  induction h with
  | down _ he => simp [fedInputs, acceptedOf, he]
  | move _ _ _ _ _ _ _ _ _ ih => rw [fedInputs_snoc]; simp [ih]
  | late _ _ _ _ _ _ _ ih => rw [fedInputs_snoc]; simp [ih]
  | up _ _ _ _ _ _ _ ih => rw [fedInputs_snoc]; simp [ih]

end Any

instance : RoundsUp XR where
  one_le {x n} h := by
    have key : ∀ y : XR, toInt y = .ok n → (y <ᵇ 1) = false → 1 ≤ n := by
      intro y hy hlt
      cases y with
      | fin a =>
        have ha : 1 ≤ a := by simpa using hlt
        simp only [toInt, trunc?, zero_le_one.trans ha, ↓reduceIte] at hy
        split at hy
        · simp only [Outcome.ok.injEq] at hy
          rw [← hy, Int.le_floor]
          exact_mod_cast ha
        · simp at hy
      | _ => simp [toInt, trunc?] at hy
    unfold fmax at h
    have h1 : ((1 : XR) <ᵇ 1) = false := by simp
    split at h
    · exact key _ h h1
    · split at h
      · rename_i hc; simp [isNaN] at hc
      · split at h
        · exact key _ h h1
        · exact key _ h (Bool.eq_false_iff.2 ‹¬ _›)

instance {f : Fmt} : RoundsUp (Fl f) where
  one_le {x n} h := by
    have h1 : Fl.val (1 : Fl f) = some ((1 : ℝ) : EReal) := by
      simpa using Fl.val_lit (f := f) 1 (Nat.one_lt_two_pow (by have := f.hp; omega))
    have key : ∀ y : Fl f, toInt y = .ok n → (y <ᵇ 1) = false → 1 ≤ n := by
      intro y hy hlt
      cases y with
      | fin c k hk =>
        have hq : (0 : ℝ) < 2 ^ f.q := by positivity
        have hle : (1 : ℝ) ≤ (Fl.sgn c k : ℝ) / 2 ^ f.q := by
          by_contra hc
          refine Bool.eq_false_iff.1 hlt (Fl.lt_val.2 ⟨_, _, rfl, h1, ?_⟩)
          exact EReal.coe_lt_coe_iff.2 (not_le.1 hc)
        rw [le_div_iff₀ hq, one_mul] at hle
        have hle : ((2 ^ f.q : ℕ) : ℤ) ≤ Fl.sgn c k := by exact_mod_cast hle
        have hpos : 0 < 2 ^ f.q := by positivity
        cases c with
        | true => simp only [Fl.sgn, ↓reduceIte] at hle; omega
        | false =>
          have hk' : 2 ^ f.q ≤ k := by simp only [Fl.sgn, Bool.false_eq_true, ↓reduceIte] at hle; omega
          have : 1 ≤ k / 2 ^ f.q := (Nat.one_le_div_iff hpos).2 hk'
          change toInt (Fl.fin false k hk) = .ok n at hy
          have ht : trunc? (Fl.fin false k hk) = some ((k / 2 ^ f.q : ℕ) : ℤ) := rfl
          simp only [toInt, ht] at hy
          split at hy
          · simp only [Outcome.ok.injEq] at hy
            omega
          · simp at hy
      | nan => simp [toInt, show trunc? (Fl.nan : Fl f) = none from rfl] at hy
      | inf c => simp [toInt, show trunc? (Fl.inf c : Fl f) = none from rfl] at hy
    have hlt : ((1 : Fl f) <ᵇ 1) = false := by
      rw [Bool.eq_false_iff, ne_eq, Fl.lt_val]
      rintro ⟨a, b, ha, hb, hab⟩
      rw [ha] at hb
      cases hb
      exact lt_irrefl _ hab
    unfold fmax at h
    split at h
    · exact key _ h hlt
    · split at h
      · rename_i hc; have := (Fl.val_isNaN _).2 hc; rw [h1] at this; simp at this
      · split at h
        · exact key _ h hlt
        · exact key _ h (Bool.eq_false_iff.2 ‹¬ _›)

end Ink
