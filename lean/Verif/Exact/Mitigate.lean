import Verif.Exact.Told
import Verif.Spec.Mitigation
/-!
# Loop contraction mitigation on exact numbers: which speeds are averaged
-/
namespace Ink
open Scalar Arith XR
noncomputable section
open Classical

namespace XR

/-- Mitigation is on, and its parameters are the real numbers `M`. -/
structure Mitigates (p : LoopParams XR XR) (M : Ref.Mitigation) : Prop where
  on : p.isEnabled = true
  lo : p.speedLowerBound = fin M.lo
  hi : p.speedUpperBound = fin M.hi
  atLo : p.strengthAtLower = fin M.atLo
  atHi : p.strengthAtUpper = fin M.atHi
  window : p.minSpeedSamplingWindow = fin M.window
  count : p.minDiscreteSpeedSamples = (M.count : ℤ)

variable {p : LoopParams XR XR} {M : Ref.Mitigation}

theorem Mitigates.valid (h : Mitigates p M) (hv : validateLoopParams p = .ok) : M.Valid := by
  unfold validateLoopParams at hv
  simp only [h.on, h.lo, h.hi, h.atLo, h.atHi, h.window, h.count, Bool.not_true, Bool.false_eq_true, ↓reduceIte, lit0, lit1, fin_lt,
    fin_le] at hv
  split at hv
  · simp at hv
  · rename_i h1
    split at hv
    · simp at hv
    · rename_i h2
      split at hv
      · simp at hv
      · rename_i h3
        split at hv
        · simp at hv
        · rename_i h4
          simp only [Bool.or_eq_true, decide_eq_true_eq, not_or, not_lt] at h1 h2 h3
          rw [Bool.or_eq_true] at h4
          simp only [decide_eq_true_eq, not_or, not_le] at h4
          exact ⟨h1.2, h1.1, h2.1.1, h2.1.2, h2.2, h4.1, by have := h3.1; omega⟩

theorem Mitigates.ok (h : Mitigates p M) (hv : M.Valid) : LoopOk p :=
  .inr ⟨_, _, _, _, h.lo, h.hi, h.atLo, h.atHi, hv.lo, hv.hi, hv.atHi, hv.strengths, hv.atLo⟩

/-- Parameters with mitigation on that validation accepts, all of them numbers. -/
theorem exists_mitigates (hv : validateLoopParams p = .ok) (hon : p.isEnabled = true)
    (hn : isFinite p.speedLowerBound = true ∧ isFinite p.speedUpperBound = true ∧ isFinite p.strengthAtLower = true ∧
      isFinite p.strengthAtUpper = true ∧ isFinite p.minSpeedSamplingWindow = true) : ∃ M, Mitigates p M ∧ M.Valid := by
  obtain ⟨h1, h2, h3, h4, h5⟩ := hn
  obtain ⟨lo, hlo⟩ := isFinite_iff.1 h1
  obtain ⟨hi, hhi⟩ := isFinite_iff.1 h2
  obtain ⟨a, ha⟩ := isFinite_iff.1 h3
  obtain ⟨b, hb⟩ := isFinite_iff.1 h4
  obtain ⟨w, hw⟩ := isFinite_iff.1 h5
  have e3 : 1 ≤ p.minDiscreteSpeedSamples := by
    unfold validateLoopParams at hv
    simp only [hon, Bool.not_true, Bool.false_eq_true, ↓reduceIte] at hv
    split at hv
    · simp at hv
    · split at hv
      · simp at hv
      · split at hv
        · simp at hv
        · rename_i h; omega
  have hm : Mitigates p ⟨lo, hi, a, b, w, p.minDiscreteSpeedSamples.toNat⟩ :=
    ⟨hon, hlo, hhi, ha, hb, hw, (Int.toNat_of_nonneg (by omega)).symm⟩
  exact ⟨_, hm, hm.valid hv⟩

/-! ### the samples kept -/

/-- All samples of a history. -/
def speeds (hist : List (Result XR XR)) : List (SpeedSample XR XR) := hist.map fun r => ⟨r.velocity.magnitude, r.time⟩

/-- Evicting twice is evicting once. -/
theorem evict_evict {t t' w : ℝ} (ht : t ≤ t') (hw : p.minSpeedSamplingWindow = fin w) (l : List (SpeedSample XR XR)) (x : SpeedSample XR XR)
    (hl : ∀ s ∈ l, ∃ u, s.time = fin u) :
    LoopModeler.evict p (fin t') (LoopModeler.evict p (fin t) l ++ [x]) = LoopModeler.evict p (fin t') (l ++ [x]) := by
  induction l with
  | nil => rfl
  | cons s l ih =>
    conv_lhs => rw [LoopModeler.evict]
    split
    · rename_i hc
      rw [ih fun s hs => hl s (by simp [hs])]
      obtain ⟨u, hu⟩ := hl s (by simp)
      conv_rhs => rw [List.cons_append, LoopModeler.evict]
      rw [if_pos]
      simp only [hw, hu, fin_sub, fin_lt, Bool.and_eq_true, decide_eq_true_eq, List.length_cons, List.length_append] at hc ⊢
      exact ⟨by linarith, by push_cast at hc ⊢; have := hc.2; omega⟩
    · rfl

theorem loopAfter_samples {w : ℝ} (hon : p.isEnabled = true) (hw : p.minSpeedSamplingWindow = fin w) {hist : List (Result XR XR)}
    {ts : List ℝ} (hts : hist.map (·.time) = ts.map fin) (ho : ts.Pairwise (· ≤ ·)) :
    (loopAfter p hist).samples = match ts.getLast? with
      | none => []
      | some t => LoopModeler.evict p (fin t) (speeds hist) := by
  induction hist using List.reverseRecOn generalizing ts with
  | nil =>
    obtain rfl : ts = [] := by simpa using hts.symm
    rfl
  | append_singleton hist r ih =>
    rcases List.eq_nil_or_concat' ts with rfl | ⟨ts, t, rfl⟩
    · simp at hts
    · simp only [List.map_append, List.map_singleton] at hts
      have hlen : (hist.map (·.time)).length = (ts.map fin).length := by
        have := congrArg List.length hts; simpa using this
      obtain ⟨h1, h2⟩ := List.append_inj hts hlen
      simp only [List.cons.injEq, and_true] at h2
      have := ih h1 (List.pairwise_append.1 ho).1
      rw [loopAfter_snoc]
      simp only [LoopModeler.update, loopAfter_params, hon, Bool.not_true, Bool.false_eq_true, ↓reduceIte, this,
        List.getLast?_append, List.getLast?_singleton, Option.some_or, h2, speeds, List.map_append, List.map_singleton]
      rcases List.eq_nil_or_concat' ts with rfl | ⟨ts, u, rfl⟩
      · have : hist = [] := by simpa using h1
        subst this
        rfl
      · simp only [List.getLast?_append, List.getLast?_singleton, Option.some_or]
        refine evict_evict ?_ hw _ _ ?_
        · exact (List.pairwise_append.1 ho).2.2 u (by simp) t (by simp)
        · intro s hs
          obtain ⟨r, hr, rfl⟩ := List.mem_map.1 hs
          have : r.time ∈ (ts ++ [u]).map fin := h1 ▸ List.mem_map_of_mem hr
          obtain ⟨u, _, hu⟩ := List.mem_map.1 this
          exact ⟨u, hu.symm⟩

/-- A speed as the code stores it. -/
def sample (s : Ref.Speed) : SpeedSample XR XR := ⟨fin s.speed, fin s.time⟩

theorem evict_newest (hm : Mitigates p M) (t : ℝ) (l : List Ref.Speed) (ho : (l.map Ref.Speed.time).Pairwise (· ≤ ·)) :
    LoopModeler.evict p (fin t) (l.map sample) =
      (Ref.newest (max M.count (l.countP fun s => t - s.time ≤ M.window)) l).map sample := by
  induction l with
  | nil => simp [LoopModeler.evict, Ref.newest]
  | cons s l ih =>
    have hs : (sample s).time = fin s.time := rfl
    simp only [List.map_cons, LoopModeler.evict, hm.window, hs, fin_sub, fin_lt]
    rw [List.map_cons, List.pairwise_cons] at ho
    by_cases hc : M.window < t - s.time ∧ M.count < l.length + 1
    · rw [if_pos (by
        simp only [List.length_cons, List.length_map, hm.count, Bool.and_eq_true, decide_eq_true_eq]
        exact ⟨hc.1, by have := hc.2; push_cast; omega⟩)]
      have h1 : (s :: l).countP (fun s => t - s.time ≤ M.window) = l.countP fun s => t - s.time ≤ M.window := by
        rw [List.countP_cons_of_neg (by rw [decide_eq_true_eq]; exact not_le.2 hc.1)]
      have h2 : l.countP (fun s => decide (t - s.time ≤ M.window)) ≤ l.length := List.countP_le_length
      rw [ih ho.2, h1]
      unfold Ref.newest
      have h3 : (s :: l).length - max M.count (l.countP fun s => t - s.time ≤ M.window) =
          (l.length - max M.count (l.countP fun s => t - s.time ≤ M.window)) + 1 := by
        rw [List.length_cons]; omega
      rw [h3, List.drop_succ_cons]
    · rw [if_neg (by
        simp only [List.length_cons, List.length_map, hm.count, Bool.and_eq_true, decide_eq_true_eq]
        intro h
        exact hc ⟨h.1, by have := h.2; push_cast at this; omega⟩)]
      have : (s :: l).length - max M.count ((s :: l).countP fun s => t - s.time ≤ M.window) = 0 := by
        rw [Nat.sub_eq_zero_iff_le]
        by_cases h1 : M.window < t - s.time
        · have : ¬ M.count < l.length + 1 := fun h => hc ⟨h1, h⟩
          rw [List.length_cons]; omega
        · refine le_max_of_le_right (le_of_eq (List.countP_eq_length.2 fun x hx => ?_).symm)
          rw [decide_eq_true_eq]
          rcases List.mem_cons.1 hx with rfl | hx
          · linarith
          · have := ho.1 x.time (List.mem_map_of_mem hx)
            linarith
      rw [Ref.newest, this]
      rfl

/-- The samples kept after a history, in closed form. -/
theorem loopAfter_recent (hm : Mitigates p M) {hist : List (Result XR XR)} {l : List Ref.Speed} (hl : speeds hist = l.map sample)
    (ho : (l.map Ref.Speed.time).Pairwise (· ≤ ·)) : (loopAfter p hist).samples = (M.recent l).map sample := by
  have h1 : hist.map (·.time) = (l.map Ref.Speed.time).map fin := by
    have := congrArg (List.map SpeedSample.time) hl
    simpa [speeds, sample, Function.comp_def] using this
  rw [loopAfter_samples hm.on hm.window h1 ho, List.getLast?_map]
  unfold Ref.Mitigation.recent Ref.within
  cases hx : l.getLast? with
  | none =>
    rw [List.getLast?_eq_none_iff] at hx
    subst hx
    simp [Ref.newest]
  | some x =>
    simp only [Option.map_some]
    rw [hl, evict_newest hm x.time l ho]

theorem recent_ne {l : List Ref.Speed} (h : M.Valid) (hne : l ≠ []) : M.recent l ≠ [] := by
  unfold Ref.Mitigation.recent Ref.newest
  have h1 := h.count
  have h2 := List.length_pos_iff.2 hne
  rw [Ne, List.drop_eq_nil_iff]
  omega

/-- The ratio after a history, in closed form. -/
theorem loopAfter_ratio (hm : Mitigates p M) (hv : M.Valid) {hist : List (Result XR XR)} {l : List Ref.Speed}
    (hl : speeds hist = l.map sample) (hn : ∀ s ∈ l, 0 ≤ s.speed) (ho : (l.map Ref.Speed.time).Pairwise (· ≤ ·)) :
    (loopAfter p hist).getInterpolationValue = fin (M.ratio l) := by
  have hs := loopAfter_recent hm hl ho
  unfold Ref.Mitigation.ratio
  by_cases hne : l = []
  · subst hne
    rw [if_pos rfl]
    unfold LoopModeler.getInterpolationValue
    rw [hs, if_pos (by simp [Ref.Mitigation.recent, Ref.newest]), lit1]
  · rw [if_neg hne]
    have hr := recent_ne hv hne
    have hnn : ∀ s ∈ (loopAfter p hist).samples, ∃ v, s.speed = fin v ∧ 0 ≤ v := by
      intro s hmem
      rw [hs] at hmem
      obtain ⟨x, hx, rfl⟩ := List.mem_map.1 hmem
      exact ⟨x.speed, rfl, hn x ((List.drop_suffix _ _).subset hx)⟩
    obtain ⟨vs, h1, h2, h3⟩ := interpolationValue_eq (l := loopAfter p hist) (by rw [loopAfter_params]; exact hm.lo)
      (by rw [loopAfter_params]; exact hm.hi) (by rw [loopAfter_params]; exact hm.atLo) (by rw [loopAfter_params]; exact hm.atHi)
      hnn (by rw [loopAfter_params]; exact hm.on) (by rw [hs]; simpa using hr)
    rw [h3]
    have h4 : vs = (M.recent l).map Ref.Speed.speed := by
      rw [hs, List.map_map] at h1
      have := congrArg (List.map toReal) h1
      simpa [sample, Function.comp_def, toReal] using this.symm
    have h5 : vs.sum / vs.length = Ref.meanSpeed (M.recent l) := by rw [h4, Ref.meanSpeed, List.length_map]
    rw [h5]
    congr 1
    unfold speedPart Ref.Mitigation.strength
    have := hv.hi
    by_cases h6 : M.hi - M.lo = 0
    · rw [if_pos h6, if_pos (.inr (by linarith))]; ring
    · have hd : 0 < M.hi - M.lo := lt_of_le_of_ne (by linarith) (Ne.symm h6)
      rw [if_neg h6]
      by_cases h7 : Ref.meanSpeed (M.recent l) ≤ M.lo
      · rw [if_pos (.inl h7), clamp_of_nonpos (div_nonpos_of_nonpos_of_nonneg (by linarith) hd.le)]; ring
      · rw [if_neg (by push Not; exact ⟨by linarith, by linarith⟩)]
        split_ifs with h8
        · rw [clamp_of_one_le (by rw [one_le_div hd]; linarith)]; ring
        · rw [clamp_of_mem (div_nonneg (by linarith) hd.le) (by rw [div_le_one hd]; linarith)]; ring

end XR
end
end Ink
