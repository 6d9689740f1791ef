import Mathlib.Analysis.Complex.Norm
/-!
# Loop contraction mitigation, as the header describes it

params.h:56-109: the part of the modeled state in a result depends on a moving average of the speed. Written without looking at the
implementation except for the choice of the samples, where code and header disagree (see C51); `recent` is what the code does,
`documented` what the header says.
-/
namespace Ink.Ref
noncomputable section
open Classical

/-- LoopContractionMitigationParameters, enabled. -/
structure Mitigation where
  /-- speed_lower_bound -/
  lo : ℝ
  /-- speed_upper_bound -/
  hi : ℝ
  /-- interpolation_strength_at_speed_lower_bound -/
  atLo : ℝ
  /-- interpolation_strength_at_speed_upper_bound -/
  atHi : ℝ
  /-- min_speed_sampling_window, in seconds -/
  window : ℝ
  /-- min_discrete_speed_samples -/
  count : ℕ

/-- What the header requires. -/
structure Mitigation.Valid (M : Mitigation) : Prop where
  lo : 0 ≤ M.lo
  hi : M.lo ≤ M.hi
  strengths : M.atHi ≤ M.atLo
  atLo : M.atLo ≤ 1
  atHi : 0 ≤ M.atHi
  window : 0 < M.window
  count : 0 < M.count

/-- A speed seen. -/
structure Speed where
  time : ℝ
  speed : ℝ

/-- The strength for an average speed: `atLo` up to the lower bound, `atHi` from the upper bound on, linear between. If the bounds
coincide it is `atLo` for all speeds. -/
def Mitigation.strength (M : Mitigation) (v : ℝ) : ℝ :=
  if v ≤ M.lo ∨ M.hi ≤ M.lo then M.atLo
  else if M.hi ≤ v then M.atHi
  else M.atLo + (v - M.lo) / (M.hi - M.lo) * (M.atHi - M.atLo)

/-- The mean. -/
def meanSpeed (l : List Speed) : ℝ := (l.map Speed.speed).sum / l.length

/-- The newest `n` entries. -/
def newest (n : ℕ) (l : List Speed) : List Speed := l.drop (l.length - n)

/-- The number of entries at most `w` older than the last one. -/
def within (w : ℝ) (l : List Speed) : ℕ :=
  match l.getLast? with
  | none => 0
  | some x => l.countP fun s => x.time - s.time ≤ w

/-- The entries averaged: those in the window, and in any case the newest `count`. -/
def Mitigation.recent (M : Mitigation) (l : List Speed) : List Speed := newest (max M.count (within M.window l)) l

/-- The ratio for the next result, given the speeds of the results of the stroke before. -/
def Mitigation.ratio (M : Mitigation) (l : List Speed) : ℝ := if l = [] then 1 else M.strength (meanSpeed (M.recent l))

/-- The time between the first and the last entry. -/
def span (l : List Speed) : ℝ :=
  match l.head?, l.getLast? with
  | some a, some b => b.time - a.time
  | _, _ => 0

/-- `n` is the number of entries to average according to the header: "the actual number of samples is the smallest number >=
min_discrete_speed_samples such that the difference in time between the first and last sample is >= min_speed_sampling_window. If we
have not yet received enough inputs to satisfy these conditions, then the moving average will be calculated using all available
inputs." -/
def Mitigation.Documented (M : Mitigation) (l : List Speed) (n : ℕ) : Prop :=
  let enough := fun k => M.count ≤ k ∧ k ≤ l.length ∧ M.window ≤ span (newest k l)
  (enough n ∧ ∀ k, enough k → n ≤ k) ∨ ((∀ k, ¬ enough k) ∧ n = l.length)

theorem Mitigation.Valid.strength_mem {M : Mitigation} (h : M.Valid) (v : ℝ) : M.atHi ≤ M.strength v ∧ M.strength v ≤ M.atLo := by
  unfold Mitigation.strength
  have := h.strengths
  split_ifs with h1 h2
  · exact ⟨this, le_rfl⟩
  · exact ⟨le_rfl, this⟩
  · push Not at h1 h2
    have hd : 0 < M.hi - M.lo := by linarith
    have h3 : 0 ≤ (v - M.lo) / (M.hi - M.lo) := div_nonneg (by linarith) hd.le
    have h4 : (v - M.lo) / (M.hi - M.lo) ≤ 1 := by rw [div_le_one hd]; linarith
    constructor <;> nlinarith

theorem Mitigation.Valid.strength_anti {M : Mitigation} (h : M.Valid) : Antitone M.strength := by
  intro v w hvw
  by_cases h1 : v ≤ M.lo ∨ M.hi ≤ M.lo
  · rw [show M.strength v = M.atLo from if_pos h1]
    exact (h.strength_mem w).2
  · by_cases h2 : M.hi ≤ w
    · have hw : M.strength w = M.atHi := by
        unfold Mitigation.strength
        push Not at h1
        rw [if_neg (by push Not; exact ⟨by linarith, h1.2⟩), if_pos h2]
      rw [hw]
      exact (h.strength_mem v).1
    · push Not at h1 h2
      unfold Mitigation.strength
      rw [if_neg (by push Not; exact ⟨by linarith, h1.2⟩), if_neg (by linarith), if_neg (by push Not; exact h1), if_neg (by linarith)]
      have hd : 0 < M.hi - M.lo := by linarith
      have h3 : (v - M.lo) / (M.hi - M.lo) ≤ (w - M.lo) / (M.hi - M.lo) := by gcongr
      have := h.strengths
      nlinarith

end
end Ink.Ref
