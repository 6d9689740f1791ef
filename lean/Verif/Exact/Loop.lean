import Verif.Exact.Kin
/-!
# Loop contraction mitigation on exact numbers
-/
namespace Ink
open Scalar Arith XR
noncomputable section
open Classical

namespace XR

/-- A ratio in [0, 1]. -/
def Frac (x : XR) : Prop := ∃ r, x = fin r ∧ 0 ≤ r ∧ r ≤ 1

/-- Mitigation is off, or its parameters are numbers. (Validation lets NaN and infinities pass, see C38.) -/
def LoopOk (p : LoopParams XR XR) : Prop :=
  p.isEnabled = false ∨ ∃ lo hi a b : ℝ, p.speedLowerBound = fin lo ∧ p.speedUpperBound = fin hi ∧
    p.strengthAtLower = fin a ∧ p.strengthAtUpper = fin b ∧ 0 ≤ lo ∧ lo ≤ hi ∧ 0 ≤ b ∧ b ≤ a ∧ a ≤ 1

/-- The parameters are numbers and all speeds seen are. -/
structure LoopFin (l : LoopModeler XR XR) : Prop where
  params : LoopOk l.params
  samples : ∀ s ∈ l.samples, ∃ v, s.speed = fin v ∧ 0 ≤ v

theorem speedSum_fin {l : List (SpeedSample XR XR)} (h : ∀ s ∈ l, ∃ v, s.speed = fin v ∧ 0 ≤ v) :
    ∃ vs : List ℝ, l.map (·.speed) = vs.map fin ∧ (∀ v ∈ vs, 0 ≤ v) ∧ LoopModeler.speedSum l = fin vs.sum := by
  have key : ∀ (l : List (SpeedSample XR XR)) (a : ℝ), (∀ s ∈ l, ∃ v, s.speed = fin v ∧ 0 ≤ v) →
      ∃ vs : List ℝ, l.map (·.speed) = vs.map fin ∧ (∀ v ∈ vs, 0 ≤ v) ∧ l.foldl (fun s x => s + x.speed) (fin a) = fin (a + vs.sum) := by
    intro l
    induction l with
    | nil => intro a _; exact ⟨[], rfl, by simp, by simp⟩
    | cons s l ih =>
      intro a h
      obtain ⟨v, hv, hv0⟩ := h s (by simp)
      obtain ⟨vs, h1, h2, h3⟩ := ih (a + v) (fun s hs => h s (by simp [hs]))
      refine ⟨v :: vs, by simp [hv, h1], by simpa using ⟨hv0, h2⟩, ?_⟩
      simp only [List.foldl_cons, hv, fin_add, h3, List.sum_cons, add_assoc]
  obtain ⟨vs, h1, h2, h3⟩ := key l 0 h
  exact ⟨vs, h1, h2, by simpa [LoopModeler.speedSum] using h3⟩

/-- How far the average speed lies in the speed range. -/
def speedPart (lo hi v : ℝ) : ℝ := if hi - lo = 0 then 0 else clamp ((v - lo) / (hi - lo))

theorem speedPart_mem (lo hi v : ℝ) : 0 ≤ speedPart lo hi v ∧ speedPart lo hi v ≤ 1 := by
  unfold speedPart; split
  · exact ⟨le_rfl, zero_le_one⟩
  · exact ⟨clamp_nonneg _, clamp_le_one _⟩

/-- The interpolation value. -/
theorem interpolationValue_eq {l : LoopModeler XR XR} {lo hi a b : ℝ} (h1 : l.params.speedLowerBound = fin lo)
    (h2 : l.params.speedUpperBound = fin hi) (h3 : l.params.strengthAtLower = fin a) (h4 : l.params.strengthAtUpper = fin b)
    (hs : ∀ s ∈ l.samples, ∃ v, s.speed = fin v ∧ 0 ≤ v) (he : l.params.isEnabled = true) (hne : l.samples ≠ []) :
    ∃ vs : List ℝ, l.samples.map (·.speed) = vs.map fin ∧ (∀ v ∈ vs, 0 ≤ v) ∧
      l.getInterpolationValue = fin (a + (b - a) * speedPart lo hi (vs.sum / vs.length)) := by
  obtain ⟨vs, hv, hv0, hsum⟩ := speedSum_fin hs
  refine ⟨vs, hv, hv0, ?_⟩
  have hlen : l.samples.length = vs.length := by have := congrArg List.length hv; simpa using this
  have hn : (l.samples.length : ℝ) ≠ 0 := by
    have : l.samples.length ≠ 0 := by simpa using hne
    exact_mod_cast this
  have hnil : l.samples.isEmpty = false := by simpa using hne
  unfold LoopModeler.getInterpolationValue
  simp only [hnil, he, Bool.not_true, Bool.or_self, Bool.false_eq_true, ↓reduceIte, hsum, ofInt_eq, Int.cast_natCast,
    fin_div _ hn, h1, h2, h3, h4, inverseLerp, fin_sub, lit0, fin_eq]
  unfold speedPart
  rw [← hlen]
  by_cases h0 : hi - lo = 0
  · simp [h0, clamp_of_nonpos]
  · simp only [h0, decide_false, Bool.false_eq_true, ↓reduceIte, fin_div _ h0, clamp01_fin, interp_fin]
    rw [clamp_of_mem (clamp_nonneg _) (clamp_le_one _)]

theorem interpolationValue_frac {l : LoopModeler XR XR} (h : LoopFin l) : Frac l.getInterpolationValue := by
  by_cases hc : (l.samples.isEmpty || !l.params.isEnabled) = true
  · refine ⟨1, ?_, zero_le_one, le_rfl⟩
    unfold LoopModeler.getInterpolationValue
    rw [if_pos hc, lit1]
  · simp only [Bool.or_eq_true, Bool.not_eq_true', not_or, Bool.not_eq_true, Bool.not_eq_false, List.isEmpty_eq_false_iff] at hc
    rcases h.params with hd | ⟨lo, hi, a, b, h1, h2, h3, h4, _, _, h5, h6, h7⟩
    · simp [hd] at hc
    · obtain ⟨vs, _, _, hv⟩ := interpolationValue_eq h1 h2 h3 h4 h.samples hc.2 hc.1
      obtain ⟨hp0, hp1⟩ := speedPart_mem lo hi (vs.sum / vs.length)
      exact ⟨_, hv, by nlinarith, by nlinarith⟩

theorem evict_subset (p : LoopParams XR XR) (t : XR) (l : List (SpeedSample XR XR)) : LoopModeler.evict p t l <:+ l := by
  induction l with
  | nil => exact List.suffix_refl _
  | cons s l ih =>
    simp only [LoopModeler.evict]
    split
    · exact ih.trans (List.suffix_cons _ _)
    · exact List.suffix_refl _

theorem loop_update_fin {l : LoopModeler XR XR} (h : LoopFin l) (v : ℂ) (t : XR) :
    LoopFin (l.update (V v) t).1 ∧ Frac (l.update (V v) t).2 ∧ (l.update (V v) t).1.params = l.params ∧
      (l.params.isEnabled = false → l.update (V v) t = (l, 1)) := by
  unfold LoopModeler.update
  split
  · rename_i he
    exact ⟨h, ⟨1, lit1, zero_le_one, le_rfl⟩, rfl, fun _ => rfl⟩
  · rename_i he
    have : LoopFin { l with samples := LoopModeler.evict l.params t (l.samples ++ [{ speed := (V v).magnitude, time := t }]) } := by
      refine ⟨h.params, ?_⟩
      intro s hs
      rcases List.mem_append.1 ((evict_subset _ _ _).subset hs) with hs | hs
      · exact h.samples s hs
      · rw [List.mem_singleton] at hs
        rw [hs]
        exact ⟨‖v‖, V_magnitude v, norm_nonneg _⟩
    exact ⟨this, interpolationValue_frac this, rfl, fun hd => by simp [hd] at he⟩

/-- The modeler after the results `hist` of a stroke. -/
def loopAfter (p : LoopParams XR XR) (hist : List (Result XR XR)) : LoopModeler XR XR :=
  hist.foldl (fun l r => (l.update r.velocity r.time).1) (LoopModeler.default.reset p)

theorem loopAfter_snoc (p : LoopParams XR XR) (hist : List (Result XR XR)) (r : Result XR XR) :
    loopAfter p (hist ++ [r]) = ((loopAfter p hist).update r.velocity r.time).1 := by simp [loopAfter]

theorem loop_update_params (l : LoopModeler XR XR) (v : Vec2 XR) (t : XR) : (l.update v t).1.params = l.params := by
  unfold LoopModeler.update; split <;> rfl

theorem loopAfter_params (p : LoopParams XR XR) (hist : List (Result XR XR)) : (loopAfter p hist).params = p := by
  induction hist using List.reverseRecOn with
  | nil => rfl
  | append_singleton l r ih => rw [loopAfter_snoc, loop_update_params, ih]

/-- The samples are those of the results `hist`. -/
def LoopIs (l : LoopModeler XR XR) (hist : List (Result XR XR)) : Prop := l.samples = (loopAfter l.params hist).samples

theorem LoopIs.value {l : LoopModeler XR XR} {hist : List (Result XR XR)} (h : LoopIs l hist) :
    l.getInterpolationValue = (loopAfter l.params hist).getInterpolationValue := by
  unfold LoopModeler.getInterpolationValue
  rw [loopAfter_params, h]

theorem LoopIs.step {l : LoopModeler XR XR} {hist : List (Result XR XR)} (h : LoopIs l hist) {r : Result XR XR} {t : XR}
    (ht : l.params.isEnabled = true → r.time = t) : LoopIs (l.update r.velocity t).1 (hist ++ [r]) := by
  unfold LoopIs
  rw [loop_update_params, loopAfter_snoc]
  unfold LoopModeler.update
  rw [loopAfter_params]
  cases he : l.params.isEnabled with
  | false => simpa [LoopIs] using h
  | true =>
    simp only [Bool.not_true, Bool.false_eq_true, ↓reduceIte]
    rw [ht he, h]

theorem LoopIs.next {l : LoopModeler XR XR} {hist : List (Result XR XR)} (h : LoopIs l hist) {r : Result XR XR} {t : XR}
    (ht : l.params.isEnabled = true → r.time = t) :
    (l.update r.velocity t).2 = (loopAfter l.params (hist ++ [r])).getInterpolationValue := by
  have h1 := (h.step ht).value
  rw [loop_update_params] at h1
  rw [← h1]
  unfold LoopModeler.update
  split
  · rename_i he
    simp only [LoopModeler.getInterpolationValue]
    rw [if_pos (by simp [he])]
  · rfl

end XR
end
end Ink
