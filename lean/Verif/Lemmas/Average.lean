import Verif.IEEE.Fair
import Verif.Spec.Shadow
import Verif.Model.Wobble
/-!
# The moving average of the wobble smoother on floats

The sums that the smoother keeps up to date pick up rounding errors with every sample. As long as the samples are not too many they stay
near the true sums, and the smoothed positions stay near the inputs.
-/
namespace Ink
noncomputable section
open Scalar Arith Fl WobbleSmoother

/-- A sample of the window for the time from `σ` on. -/
structure Fine (R G σ : ℝ) (s : WobbleSample (Fl f32) (Fl f64)) : Prop where
  time : Finite s.time
  gap : σ ≤ num s.time ∧ num s.time - σ ≤ G
  duration : Finite s.duration ∧ |num s.duration - (num s.time - σ)| ≤ (num s.time - σ) / 2 ^ 20
  weightedx : Finite s.weightedPosition.x ∧ |num s.weightedPosition.x| ≤ 101 / 100 * R * (num s.time - σ)
  weightedy : Finite s.weightedPosition.y ∧ |num s.weightedPosition.y| ≤ 101 / 100 * R * (num s.time - σ)
  distance : Finite s.distance ∧ |num s.distance| ≤ 16 * R

/-- The samples of the window tile the time between the given bounds. -/
inductive Spans (R G : ℝ) : ℝ → List (WobbleSample (Fl f32) (Fl f64)) → ℝ → Prop
  | nil {t : ℝ} : Spans R G t [] t
  | cons {σ t : ℝ} {s : WobbleSample (Fl f32) (Fl f64)} {ss : List (WobbleSample (Fl f32) (Fl f64))} (hs : Fine R G σ s)
      (h : Spans R G (num s.time) ss t) : Spans R G σ (s :: ss) t

/-- The sum of a number over the samples. -/
def sumOf (f : WobbleSample (Fl f32) (Fl f64) → ℝ) (ss : List (WobbleSample (Fl f32) (Fl f64))) : ℝ := (ss.map f).sum

variable {R G σ t t' S τ : ℝ} {k n : ℕ} {s : WobbleSample (Fl f32) (Fl f64)} {ss : List (WobbleSample (Fl f32) (Fl f64))}
  {wps : Vec2 (Fl f32)} {dist dur : Fl f32}

theorem Spans.le (h : Spans R G σ ss t) : σ ≤ t := by
  induction h with
  | nil => exact le_rfl
  | cons hs h ih => exact hs.gap.1.trans ih

theorem Spans.push (h : Spans R G σ ss t) (hs : Fine R G t s) : Spans R G σ (ss ++ [s]) (num s.time) := by
  induction h with
  | nil => exact .cons hs .nil
  | cons hs' h ih => exact .cons hs' (ih hs)

theorem Spans.duration (h : Spans R G σ ss t) : |sumOf (fun s => num s.duration) ss - (t - σ)| ≤ (t - σ) / 2 ^ 20 := by
  induction h with
  | nil => simp [sumOf]
  | @cons σ t s ss hs h ih =>
    have h1 := hs.duration.2
    simp only [sumOf, List.map_cons, List.sum_cons] at ih ⊢
    rw [abs_le] at *
    constructor <;> linarith

theorem Spans.weighted {f : WobbleSample (Fl f32) (Fl f64) → ℝ} (h : Spans R G σ ss t)
    (hf : ∀ σ s, Fine R G σ s → |f s| ≤ 101 / 100 * R * (num s.time - σ)) : |sumOf f ss| ≤ 101 / 100 * R * (t - σ) := by
  induction h with
  | nil => simp [sumOf]
  | @cons σ t s ss hs h ih =>
    have h1 := hf _ _ hs
    simp only [sumOf, List.map_cons, List.sum_cons] at ih ⊢
    refine (abs_add_le _ _).trans ?_
    linarith

/-- The sums are near the true ones after `k` additions and subtractions. -/
structure Sums (R S : ℝ) (k : ℕ) (ss : List (WobbleSample (Fl f32) (Fl f64))) (wps : Vec2 (Fl f32)) (dist dur : Fl f32) : Prop where
  duration : Finite dur ∧ |num dur - sumOf (fun s => num s.duration) ss| ≤ k * (4 * eps * S)
  weightedx : Finite wps.x ∧ |num wps.x - sumOf (fun s => num s.weightedPosition.x) ss| ≤ k * (4 * eps * (R * S))
  weightedy : Finite wps.y ∧ |num wps.y - sumOf (fun s => num s.weightedPosition.y) ss| ≤ k * (4 * eps * (R * S))
  distance : Finite dist ∧ |num dist| ≤ k * (32 * R)

/-- Usual sizes. -/
structure Sized (R G τ : ℝ) : Prop where
  region : 1 / 2 ^ 50 ≤ R ∧ R ≤ 2 ^ 50
  gap : 0 ≤ G ∧ G ≤ 2 ^ 20
  timeout : 1 / 2 ^ 20 ≤ τ ∧ τ ≤ 2 ^ 20

/-- A span of time that is zero or usual. -/
def Span (S : ℝ) : Prop := S = 0 ∨ 1 / 2 ^ 20 ≤ S ∧ S ≤ 2 ^ 30

theorem Span.nonneg (h : Span S) : 0 ≤ S := by
  rcases h with rfl | h
  · exact le_rfl
  · exact le_trans (by positivity) h.1

theorem Span.ample (h : Span S) : Ample S := by
  rcases h with rfl | h
  · exact .inl rfl
  · exact .inr ⟨le_trans (by norm_num) h.1, h.2.trans (by norm_num)⟩

theorem Span.times (h : Span S) (hR : 1 / 2 ^ 50 ≤ R ∧ R ≤ 2 ^ 50) {c : ℝ} (h1 : 1 ≤ c) (h2 : c ≤ 4) : Ample (c * (R * S)) := by
  have hR0 : 0 < R := lt_of_lt_of_le (by positivity) hR.1
  rcases h with rfl | ⟨h3, h4⟩
  · exact .inl (by ring)
  · right
    have h0 : 0 < S := lt_of_lt_of_le (by positivity) h3
    constructor
    · calc (1 : ℝ) / 2 ^ 100 ≤ 1 * (1 / 2 ^ 50 * (1 / 2 ^ 20)) := by norm_num
        _ ≤ _ := by gcongr; exact hR.1
    · calc c * (R * S) ≤ 4 * (2 ^ 50 * 2 ^ 30) := by gcongr; exact hR.2
        _ ≤ 2 ^ 125 := by norm_num

theorem Sums.widen (h : Sums R S k ss wps dist dur) (hR : 0 ≤ R) {S' : ℝ} (hS : S ≤ S') : Sums R S' k ss wps dist dur := by
  have h0 : 0 ≤ eps := by norm_num [eps]
  refine ⟨⟨h.duration.1, h.duration.2.trans ?_⟩, ⟨h.weightedx.1, h.weightedx.2.trans ?_⟩, ⟨h.weightedy.1, h.weightedy.2.trans ?_⟩,
    h.distance⟩ <;> gcongr

theorem near_next {x x' y T e b : ℝ} (h : |x - T| ≤ k * e) (hx : |x' - y| ≤ e) (hy : y - x = b) : |x' - (T + b)| ≤ ((k + 1 : ℕ) : ℝ) * e := by
  have e1 : x' - (T + b) = (x' - y) + (x - T) := by rw [← hy]; ring
  rw [e1]
  refine (abs_add_le _ _).trans ?_
  push_cast
  linarith

theorem few_ops {c : ℝ} (hc : 0 ≤ c) (hk : k ≤ 2 ^ 18) : k * (4 * eps * c) ≤ 66 / 1000 * c := by
  have : (k : ℝ) ≤ 2 ^ 18 := by exact_mod_cast hk
  calc k * (4 * eps * c) ≤ 2 ^ 18 * (4 * eps * c) := by have : 0 ≤ eps := by norm_num [eps]
                                                        gcongr
    _ = (2 ^ 18 * (4 * eps)) * c := by ring
    _ ≤ _ := mul_le_mul_of_nonneg_right (by norm_num [eps]) hc

theorem far_next {x x' y : ℝ} (hR : 0 ≤ R) (hk : k ≤ 2 ^ 18) (hx : |x| ≤ k * (32 * R)) (hy : |y - x| ≤ 16 * R)
    (hx' : |x' - y| ≤ eps * (((k + 1 : ℕ) : ℝ) * (32 * R))) : |x'| ≤ ((k + 1 : ℕ) : ℝ) * (32 * R) := by
  have e1 : x' = x + (y - x) + (x' - y) := by ring
  rw [e1]
  refine ((abs_add_le _ _).trans (add_le_add_left (abs_add_le _ _) _)).trans ?_
  have h1 : ((k + 1 : ℕ) : ℝ) ≤ 2 ^ 19 := by
    have : k + 1 ≤ 2 ^ 19 := by omega
    exact_mod_cast this
  have h2 : eps * (((k + 1 : ℕ) : ℝ) * (32 * R)) ≤ 16 * R := by
    have : eps * (((k + 1 : ℕ) : ℝ) * (32 * R)) = (eps * ((k + 1 : ℕ) : ℝ) * 32) * R := by ring
    rw [this]
    refine mul_le_mul_of_nonneg_right ?_ hR
    calc eps * ((k + 1 : ℕ) : ℝ) * 32 ≤ eps * 2 ^ 19 * 32 := by have : 0 ≤ eps := by norm_num [eps]
                                                                gcongr
      _ ≤ 16 := by norm_num [eps]
  push_cast at *
  linarith

theorem usual_count (hR : 1 / 2 ^ 50 ≤ R ∧ R ≤ 2 ^ 50) (hk : k ≤ 2 ^ 18) : Usual (((k + 1 : ℕ) : ℝ) * (32 * R)) := by
  have h1 : ((k + 1 : ℕ) : ℝ) ≤ 2 ^ 19 := by
    have : k + 1 ≤ 2 ^ 19 := by omega
    exact_mod_cast this
  have h2 : (1 : ℝ) ≤ ((k + 1 : ℕ) : ℝ) := by push_cast; linarith [Nat.cast_nonneg (α := ℝ) k]
  have hR0 : 0 < R := lt_of_lt_of_le (by positivity) hR.1
  constructor
  · calc (1 : ℝ) / 2 ^ 100 ≤ 1 * (32 * (1 / 2 ^ 50)) := by norm_num
      _ ≤ _ := by gcongr; exact hR.1
  · calc ((k + 1 : ℕ) : ℝ) * (32 * R) ≤ 2 ^ 19 * (32 * 2 ^ 50) := by gcongr; exact hR.2
      _ ≤ 2 ^ 125 := by norm_num

variable [Libm]

theorem addDouble_mild {x : Fl f32} {d : Fl f64} (hx : Finite x) (hd : Finite d) {B : ℝ} (hB : Ample B) (h : |num x + num d| ≤ B) :
    Finite (addDouble x d) ∧ |num (addDouble x d) - (num x + num d)| ≤ 2 * eps * B := by
  have hw := finite_widen hx
  have e1 : num ((Arith.widen x : Fl f64) + d) = rd f64 (num x + num d) := by rw [num_add hw hd, num_widen hx]
  obtain ⟨h1, h2, h3⟩ := rd_twice hB h
  have hf : Finite ((Arith.widen x : Fl f64) + d) := finite_of_num_le (j := 126) (add_not_nan hw hd) (by decide) (by rw [e1]; exact h3)
  have e2 : num (addDouble x d) = rd f32 (rd f64 (num x + num d)) := (num_convert (g := f32) hf).trans (by rw [e1])
  refine ⟨finite_of_num_le (j := 126) ?_ (by decide) (by rw [e2]; exact h2), by rw [e2]; exact h1⟩
  exact (convert_isNaN _).trans hf.1

theorem subDouble_mild {x : Fl f32} {d : Fl f64} (hx : Finite x) (hd : Finite d) {B : ℝ} (hB : Ample B) (h : |num x - num d| ≤ B) :
    Finite (subDouble x d) ∧ |num (subDouble x d) - (num x - num d)| ≤ 2 * eps * B := by
  have hw := finite_widen hx
  have e1 : num ((Arith.widen x : Fl f64) - d) = rd f64 (num x - num d) := by rw [num_sub hw hd, num_widen hx]
  obtain ⟨h1, h2, h3⟩ := rd_twice hB h
  have hf : Finite ((Arith.widen x : Fl f64) - d) := finite_of_num_le (j := 126) (sub_not_nan hw hd) (by decide) (by rw [e1]; exact h3)
  have e2 : num (subDouble x d) = rd f32 (rd f64 (num x - num d)) := (num_convert (g := f32) hf).trans (by rw [e1])
  refine ⟨finite_of_num_le (j := 126) ?_ (by decide) (by rw [e2]; exact h2), by rw [e2]; exact h1⟩
  exact (convert_isNaN _).trans hf.1

/-- A sample is added. -/
theorem Sums.push (h : Sums R S k ss wps dist dur) (hspan : Spans R G σ ss t) (hs : Fine R G t s) (hR : 1 / 2 ^ 50 ≤ R ∧ R ≤ 2 ^ 50)
    (hS : Span S) (hle : num s.time - σ ≤ S / 2) (hk : k ≤ 2 ^ 18) :
    Sums R S (k + 1) (ss ++ [s]) (wps + s.weightedPosition) (dist + s.distance) (addDouble dur s.duration) := by
  have hR0 : 0 ≤ R := le_trans (by positivity) hR.1
  have hS0 := hS.nonneg
  have hsp := hspan.push hs
  have hRS : 0 ≤ R * S := mul_nonneg hR0 hS0
  have sum1 : ∀ f : WobbleSample (Fl f32) (Fl f64) → ℝ, sumOf f (ss ++ [s]) = sumOf f ss + f s := by intro f; simp [sumOf]
  have wt : ∀ {f : WobbleSample (Fl f32) (Fl f64) → ℝ} {x : ℝ}, (∀ σ s, Fine R G σ s → |f s| ≤ 101 / 100 * R * (num s.time - σ)) →
      |x - sumOf f ss| ≤ k * (4 * eps * (R * S)) → |x + f s| ≤ 1 * (R * S) := by
    intro f x hf hx
    have h1 := hsp.weighted hf
    rw [sum1] at h1
    have h2 := few_ops hRS hk
    have h3 : 101 / 100 * R * (num s.time - σ) ≤ 101 / 100 * R * (S / 2) := by gcongr
    have e : x + f s = (x - sumOf f ss) + (sumOf f ss + f s) := by ring
    rw [e]
    refine (abs_add_le _ _).trans ?_
    nlinarith
  refine ⟨?_, ?_, ?_, ?_⟩
  · have h1 : |num dur + num s.duration| ≤ S := by
      have h1 := hsp.duration
      rw [sum1] at h1
      have h2 := few_ops hS0 hk
      have e : num dur + num s.duration = (num dur - sumOf (fun s => num s.duration) ss) +
        (sumOf (fun s => num s.duration) ss + num s.duration - (num s.time - σ)) + (num s.time - σ) := by ring
      rw [e]
      refine ((abs_add_le _ _).trans (add_le_add_left (abs_add_le _ _) _)).trans ?_
      have h3 := hsp.le
      have h4 := h.duration.2
      rw [abs_of_nonneg (by linarith : 0 ≤ num s.time - σ)]
      linarith
    obtain ⟨f1, e1⟩ := addDouble_mild h.duration.1 hs.duration.1 hS.ample h1
    refine ⟨f1, ?_⟩
    rw [sum1]
    refine near_next h.duration.2 (e1.trans ?_) (by ring)
    have : 0 ≤ eps * S := mul_nonneg (by norm_num [eps]) hS0
    linarith
  · have h1 := wt (f := fun s => num s.weightedPosition.x) (fun σ s hs => hs.weightedx.2) h.weightedx.2
    obtain ⟨f1, e1⟩ := add_mild h.weightedx.1 hs.weightedx.1 (hS.times hR le_rfl (by norm_num)) h1
    refine ⟨f1, ?_⟩
    rw [sum1]
    refine near_next h.weightedx.2 (e1.trans ?_) (by ring)
    have : 0 ≤ eps * (R * S) := mul_nonneg (by norm_num [eps]) hRS
    linarith
  · have h1 := wt (f := fun s => num s.weightedPosition.y) (fun σ s hs => hs.weightedy.2) h.weightedy.2
    obtain ⟨f1, e1⟩ := add_mild h.weightedy.1 hs.weightedy.1 (hS.times hR le_rfl (by norm_num)) h1
    refine ⟨f1, ?_⟩
    rw [sum1]
    refine near_next h.weightedy.2 (e1.trans ?_) (by ring)
    have : 0 ≤ eps * (R * S) := mul_nonneg (by norm_num [eps]) hRS
    linarith
  · have hU := usual_count hR hk
    have h1 : |num dist + num s.distance| ≤ ((k + 1 : ℕ) : ℝ) * (32 * R) := by
      refine (abs_add_le _ _).trans ?_
      have := h.distance.2
      have := hs.distance.2
      push_cast
      linarith
    obtain ⟨f1, e1⟩ := add_near h.distance.1 hs.distance.1 hU h1
    exact ⟨f1, far_next hR0 hk h.distance.2 (by rw [add_sub_cancel_left]; exact hs.distance.2) e1⟩

/-- The first sample is removed. -/
theorem Sums.pop (h : Sums R S k (s :: ss) wps dist dur) (hspan : Spans R G σ (s :: ss) t) (hR : 1 / 2 ^ 50 ≤ R ∧ R ≤ 2 ^ 50)
    (hS : Span S) (hle : t - σ ≤ S / 2) (hk : k ≤ 2 ^ 18) :
    Sums R S (k + 1) ss (wps - s.weightedPosition) (dist - s.distance) (subDouble dur s.duration) := by
  have hR0 : 0 ≤ R := le_trans (by positivity) hR.1
  have hS0 := hS.nonneg
  obtain ⟨hs, hsp⟩ : Fine R G σ s ∧ Spans R G (num s.time) ss t := by
    cases hspan with
    | cons hs h => exact ⟨hs, h⟩
  have hRS : 0 ≤ R * S := mul_nonneg hR0 hS0
  have hle' : t - num s.time ≤ S / 2 := by linarith [hs.gap.1]
  have sum1 : ∀ f : WobbleSample (Fl f32) (Fl f64) → ℝ, sumOf f (s :: ss) = f s + sumOf f ss := by intro f; simp [sumOf]
  have wt : ∀ {f : WobbleSample (Fl f32) (Fl f64) → ℝ} {x : ℝ}, (∀ σ s, Fine R G σ s → |f s| ≤ 101 / 100 * R * (num s.time - σ)) →
      |x - sumOf f (s :: ss)| ≤ k * (4 * eps * (R * S)) → |x - f s| ≤ 1 * (R * S) := by
    intro f x hf hx
    have h1 := hsp.weighted hf
    rw [sum1] at hx
    have h2 := few_ops hRS hk
    have h3 : 101 / 100 * R * (t - num s.time) ≤ 101 / 100 * R * (S / 2) := by gcongr
    have e : x - f s = (x - (f s + sumOf f ss)) + sumOf f ss := by ring
    rw [e]
    refine (abs_add_le _ _).trans ?_
    nlinarith
  have back : ∀ {f : WobbleSample (Fl f32) (Fl f64) → ℝ} {x x' e : ℝ}, |x - sumOf f (s :: ss)| ≤ k * e → |x' - (x - f s)| ≤ e →
      |x' - sumOf f ss| ≤ ((k + 1 : ℕ) : ℝ) * e := by
    intro f x x' e h1 h2
    have := near_next h1 h2 (b := - f s) (by ring)
    rw [sum1] at this
    rwa [show f s + sumOf f ss + -f s = sumOf f ss by ring] at this
  refine ⟨?_, ?_, ?_, ?_⟩
  · have h1 : |num dur - num s.duration| ≤ S := by
      have h1 := hsp.duration
      have h2 := few_ops hS0 hk
      have h4 := h.duration.2
      rw [sum1] at h4
      have e : num dur - num s.duration = (num dur - (num s.duration + sumOf (fun s => num s.duration) ss)) +
        (sumOf (fun s => num s.duration) ss - (t - num s.time)) + (t - num s.time) := by ring
      rw [e]
      refine ((abs_add_le _ _).trans (add_le_add_left (abs_add_le _ _) _)).trans ?_
      have h3 := hsp.le
      rw [abs_of_nonneg (by linarith : 0 ≤ t - num s.time)]
      linarith
    obtain ⟨f1, e1⟩ := subDouble_mild h.duration.1 hs.duration.1 hS.ample h1
    refine ⟨f1, back h.duration.2 (e1.trans ?_)⟩
    have : 0 ≤ eps * S := mul_nonneg (by norm_num [eps]) hS0
    linarith
  · have h1 := wt (f := fun s => num s.weightedPosition.x) (fun σ s hs => hs.weightedx.2) h.weightedx.2
    obtain ⟨f1, e1⟩ := sub_mild h.weightedx.1 hs.weightedx.1 (hS.times hR le_rfl (by norm_num)) h1
    refine ⟨f1, back (f := fun s => num s.weightedPosition.x) h.weightedx.2 (e1.trans ?_)⟩
    have : 0 ≤ eps * (R * S) := mul_nonneg (by norm_num [eps]) hRS
    linarith
  · have h1 := wt (f := fun s => num s.weightedPosition.y) (fun σ s hs => hs.weightedy.2) h.weightedy.2
    obtain ⟨f1, e1⟩ := sub_mild h.weightedy.1 hs.weightedy.1 (hS.times hR le_rfl (by norm_num)) h1
    refine ⟨f1, back (f := fun s => num s.weightedPosition.y) h.weightedy.2 (e1.trans ?_)⟩
    have : 0 ≤ eps * (R * S) := mul_nonneg (by norm_num [eps]) hRS
    linarith
  · have hU := usual_count hR hk
    have h1 : |num dist - num s.distance| ≤ ((k + 1 : ℕ) : ℝ) * (32 * R) := by
      refine (abs_sub _ _).trans ?_
      have := h.distance.2
      have := hs.distance.2
      push_cast
      linarith
    obtain ⟨f1, e1⟩ := sub_near h.distance.1 hs.distance.1 hU h1
    exact ⟨f1, far_next hR0 hk h.distance.2 (by rw [sub_sub_cancel_left, abs_neg]; exact hs.distance.2) e1⟩

/-- Old samples are removed. -/
theorem evict_sums {limit : Fl f64} (hlim : Finite limit) {st : WobbleState (Fl f32) (Fl f64)} (h : evict limit ss wps dist dur = .ok st)
    (hspan : Spans R G σ ss t) (hsum : Sums R S k ss wps dist dur) (hR : 1 / 2 ^ 50 ≤ R ∧ R ≤ 2 ^ 50)
    (hS : Span S) (hle : t - σ ≤ S / 2) (hk : k + ss.length ≤ 2 ^ 18) :
    (∃ s rest, st.samples = s :: rest ∧ num limit ≤ num s.time) ∧ st.samples <:+ ss ∧
    (st = ⟨ss, wps, dist, dur⟩ ∨ ∃ σ' k', Spans R G σ' st.samples t ∧
      Sums R S k' st.samples st.weightedPositionSum st.distanceSum st.durationSum ∧ k' + st.samples.length = k + ss.length ∧
      σ' < num limit) := by
  induction ss generalizing wps dist dur σ k with
  | nil => simp [evict] at h
  | cons s ss ih =>
    obtain ⟨hs, hsp⟩ : Fine R G σ s ∧ Spans R G (num s.time) ss t := by
      cases hspan with
      | cons hs h => exact ⟨hs, h⟩
    rw [evict] at h
    rw [List.length_cons] at hk
    split at h
    · rename_i hlt
      rw [lt_num hs.time.1 hlim.1, decide_eq_true_eq] at hlt
      have hpop := hsum.pop hspan hR hS hle (by omega)
      obtain ⟨g1, g2, g3⟩ := ih h hsp hpop (by linarith [hs.gap.1]) (by omega)
      refine ⟨g1, g2.trans (List.suffix_cons _ _), .inr ?_⟩
      rcases g3 with rfl | ⟨σ', k', q1, q2, q3, q4⟩
      · exact ⟨_, _, hsp, hpop, by simp; omega, hlt⟩
      · exact ⟨σ', k', q1, q2, by rw [q3, List.length_cons]; omega, q4⟩
    · rename_i hlt
      rw [lt_num hs.time.1 hlim.1, decide_eq_true_eq, not_lt] at hlt
      simp only [Outcome.ok.injEq] at h
      subst h
      exact ⟨⟨s, ss, rfl, hlt⟩, List.suffix_refl _, .inl rfl⟩

/-- What holds of the smoother after `n` inputs of which the last was at the time `t`. The sums are as precise as the window is long: the
window starts with the stroke, or it has the full length. -/
structure Averaging (R G τ : ℝ) (n : ℕ) (st : WobbleState (Fl f32) (Fl f64)) (t : ℝ) : Prop where
  last : ∃ last, st.samples.getLast? = some last ∧ num last.time = t ∧ Finite last.time ∧ InReach R last.position
  window : ∃ σ k S, Spans R G σ st.samples t ∧ Sums R S k st.samples st.weightedPositionSum st.distanceSum st.durationSum ∧
    k + st.samples.length ≤ 2 * n ∧ t - σ ≤ 101 / 100 * τ + G ∧
    (S = 2 * (t - σ) ∧ Span (t - σ) ∨ S = 3 * (τ + 2 * G) ∧ 99 / 100 * τ ≤ t - σ)

omit [Libm] in
theorem averaging_start (hz : Sized R G τ) {x : Vec2 (Fl f32)} {t : Fl f64} (hx : InReach R x) (ht : Finite t) (w : WobbleSmoother (Fl f32) (Fl f64))
    (p : WobbleParams (Fl f32) (Fl f64)) : Averaging R G τ 1 (w.reset p x t).state (num t) := by
  have hR0 : 0 ≤ R := le_trans (by positivity) hz.region.1
  have hτ : 0 ≤ τ := le_trans (by positivity) hz.timeout.1
  have hG := hz.gap.1
  refine ⟨⟨_, rfl, rfl, ht, hx⟩, num t, 0, 0, .cons ?_ .nil, ?_, by simp [reset], by linarith, .inl ⟨by ring, .inl (by ring)⟩⟩
  · have z : Finite (0 : Fl f32) ∧ |num (0 : Fl f32)| ≤ 101 / 100 * R * (num t - num t) := ⟨finite_zero, by simp [num_zero]⟩
    refine ⟨ht, ⟨le_rfl, by linarith⟩, ⟨finite_zero, by simp [num_zero]⟩, z, z, ⟨finite_zero, ?_⟩⟩
    simpa [num_zero] using hR0
  · have z : Finite (0 : Fl f32) ∧ |num (0 : Fl f32) - 0| ≤ ((0 : ℕ) : ℝ) * (4 * eps * (R * 0)) := ⟨finite_zero, by simp [num_zero]⟩
    refine ⟨⟨finite_zero, ?_⟩, ⟨finite_zero, ?_⟩, ⟨finite_zero, ?_⟩, ⟨finite_zero, ?_⟩⟩ <;>
      simp [num_zero, sumOf, reset, Vec2.zero]

/-- The next input may follow at this time. -/
structure Succeeds (G t : ℝ) (time : Fl f64) : Prop where
  finite : Finite time
  gap : num time = t ∨ 1 / 2 ^ 20 ≤ num time - t
  upper : num time - t ≤ G
  early : |num time| ≤ 2 ^ 20

omit [Libm] in
theorem Succeeds.span {time : Fl f64} (h : Succeeds G t time) (hG : G ≤ 2 ^ 20) : Span (num time - t) := by
  rcases h.gap with h1 | h1
  · exact .inl (by rw [h1, sub_self])
  · exact .inr ⟨h1, h.upper.trans (hG.trans (by norm_num))⟩

/-- The difference of two times in single precision. -/
theorem narrow_sub {a b : Fl f64} (ha : Finite a) (hb : Finite b) (hS : Span (num b - num a)) :
    Finite (b - a) ∧ |num (b - a) - (num b - num a)| ≤ (num b - num a) / 2 ^ 20 ∧ Finite (Arith.narrow (b - a) : Fl f32) ∧
      |num (Arith.narrow (b - a) : Fl f32) - (num b - num a)| ≤ 2 * eps * (num b - num a) := by
  have h0 := hS.nonneg
  have e1 := num_sub hb ha
  obtain ⟨h1, h2, h3⟩ := rd_twice hS.ample (abs_of_nonneg h0).le
  have hf : Finite (b - a) := finite_of_num_le (j := 126) (sub_not_nan hb ha) (by decide) (by rw [e1]; exact h3)
  have e2 : num (Arith.narrow (b - a) : Fl f32) = rd f32 (rd f64 (num b - num a)) := (num_convert (g := f32) hf).trans (by rw [e1])
  refine ⟨hf, ?_, finite_of_num_le (j := 126) ?_ (by decide) (by rw [e2]; exact h2), by rw [e2]; exact h1⟩
  · rw [e1]
    rcases hS with hS | ⟨h4, h5⟩
    · rw [hS, rd_zero]; norm_num
    · have h6 := rd_err_rel (f := f64) (r := num b - num a) (j := 31)
        (by rw [abs_of_nonneg h0]; exact lt_of_le_of_lt h5 (by norm_num)) (by decide)
      have q1 : f64.p = 53 := rfl
      have q2 : f64.q = 1074 := rfl
      rw [q1, q2, abs_of_nonneg h0] at h6
      have h7 : (1 : ℝ) / 2 ^ (1074 + 1) ≤ 1 / 2 ^ 60 :=
        one_div_le_one_div_of_le (by positivity) (pow_le_pow_right₀ (by norm_num) (by norm_num))
      generalize (1 : ℝ) / 2 ^ (1074 + 1) = τ at h6 h7
      refine h6.trans ?_
      norm_num at h4 h7 ⊢
      linarith
  · exact (convert_isNaN _).trans hf.1

/-- The sample of an input. -/
theorem fine_push [LibmFair] (hz : Sized R G τ) {x : Vec2 (Fl f32)} {time : Fl f64} {last : WobbleSample (Fl f32) (Fl f64)} (hx : InReach R x)
    (hl : Finite last.time) (hlx : InReach R last.position) (h : Succeeds G (num last.time) time) :
    Fine R G (num last.time)
      { position := x, weightedPosition := (Arith.narrow (time - last.time) : Fl f32) •ᵥ x
        distance := Ink.distance x last.position, duration := time - last.time, time } := by
  have hR := hz.region
  have hR0 : 0 < R := lt_of_lt_of_le (by positivity) hR.1
  have hS := h.span hz.gap.2
  have hS0 := hS.nonneg
  have heps : eps = 1 / 16000000 := rfl
  obtain ⟨d1, d2, n1, n2⟩ := narrow_sub hl h.finite hS
  generalize hΔ : num time - num last.time = Δ at *
  have n3 : |num (Arith.narrow (time - last.time) : Fl f32)| ≤ 1001 / 1000 * Δ := by
    refine (abs_of_near n2 (abs_of_nonneg hS0).le).trans ?_
    rw [heps]; linarith
  have w : ∀ {a : Fl f32}, Finite a → |num a| ≤ R → Finite ((Arith.narrow (time - last.time) : Fl f32) * a) ∧
      |num ((Arith.narrow (time - last.time) : Fl f32) * a)| ≤ 101 / 100 * R * Δ := by
    intro a ha hb
    have h1 : |num (Arith.narrow (time - last.time) : Fl f32) * num a| ≤ 1001 / 1000 * (R * Δ) := by
      rw [abs_mul]
      calc _ ≤ 1001 / 1000 * Δ * R := mul_le_mul n3 hb (abs_nonneg _) (by positivity)
        _ = _ := by ring
    obtain ⟨f1, e1⟩ := mul_mild n1 ha (hS.times hR (by norm_num) (by norm_num)) h1
    refine ⟨f1, (abs_of_near e1 h1).trans ?_⟩
    have : 0 ≤ R * Δ := by positivity
    rw [heps]; linarith
  refine ⟨h.finite, ⟨?_, ?_⟩, ⟨d1, ?_⟩, ?_, ?_, ?_⟩
  · linarith
  · have := h.upper; linarith
  · rw [hΔ]; exact d2
  · rw [hΔ]; exact w hx.finx hx.x
  · rw [hΔ]; exact w hx.finy hx.y
  · have hB : 1 / 2 ^ 80 ≤ R ∧ R ≤ 2 ^ 110 := ⟨le_trans (by norm_num) hR.1, hR.2.trans (by norm_num)⟩
    have dd : ∀ {a b : Fl f32}, Finite a → Finite b → |num a| ≤ R → |num b| ≤ R → Finite (a - b) ∧ |num (a - b)| ≤ 4 * R := by
      intro a b ha hb h1 h2
      have hr1 : |num a - num b| ≤ 2 * R := (abs_sub _ _).trans (by linarith)
      obtain ⟨f1, e1⟩ := sub_near ha hb (usual_of (k := 2) hB rfl (by norm_num) (by norm_num)) hr1
      exact ⟨f1, (abs_of_near e1 hr1).trans (by rw [heps]; linarith)⟩
    obtain ⟨a1, a2⟩ := dd hlx.finx hx.finx hlx.x hx.x
    obtain ⟨b1, b2⟩ := dd hlx.finy hx.finy hlx.y hx.y
    obtain ⟨g1, g2, g3⟩ := hypot_reach a1 b1 (by
      calc 4 * R ≤ 4 * 2 ^ 50 := by linarith [hR.2]
        _ ≤ 2 ^ 100 := by norm_num) a2 b2
    refine ⟨g1, ?_⟩
    change |num (Fl.hypot (last.position.x - x.x) (last.position.y - x.y))| ≤ 16 * R
    rw [abs_of_nonneg g2]
    linarith

omit [Libm] in
/-- The limit of the window. -/
theorem limit_near {time timeout : Fl f64} (ht : Finite time) (h1 : |num time| ≤ 2 ^ 20) (hto : Finite timeout)
    (hτ : 1 / 2 ^ 20 ≤ num timeout ∧ num timeout ≤ 2 ^ 20) :
    Finite (time - timeout) ∧ |num (time - timeout) - (num time - num timeout)| ≤ num timeout / 100 := by
  have e1 := num_sub ht hto
  have h0 : 0 ≤ num timeout := le_trans (by positivity) hτ.1
  have h2 : |num time - num timeout| ≤ 2 ^ 21 := (abs_sub _ _).trans (by rw [abs_of_nonneg h0]; linarith [hτ.2])
  have h6 := rd_err_rel (f := f64) (r := num time - num timeout) (j := 22) (lt_of_le_of_lt h2 (by norm_num)) (by decide)
  have q1 : f64.p = 53 := rfl
  have q2 : f64.q = 1074 := rfl
  rw [q1, q2] at h6
  have h7 : (1 : ℝ) / 2 ^ (1074 + 1) ≤ 1 / 2 ^ 60 :=
    one_div_le_one_div_of_le (by positivity) (pow_le_pow_right₀ (by norm_num) (by norm_num))
  generalize (1 : ℝ) / 2 ^ (1074 + 1) = e at h6 h7
  have h8 : |num (time - timeout)| ≤ 2 ^ 21 := by
    rw [e1, abs_rd, ← rd_two_pow (f := f64) (j := 21) (by decide)]
    exact rd_mono h2
  refine ⟨finite_of_num_le (j := 21) (sub_not_nan ht hto) (by decide) h8, ?_⟩
  rw [e1]
  refine h6.trans ?_
  have h9 := hτ.1
  norm_num at h2 h7 h9 ⊢
  linarith

omit [Libm] in
/-- The share of the smoothed position is a number. -/
theorem normalize_not_nan {a b v : Fl f32} (ha : Finite a) (hb : Finite b) (h0 : 0 ≤ num a) (hab : num a ≤ num b) (hv : Fl.isNaN v = false) :
    Fl.isNaN (normalize01 a b v) = false := by
  unfold normalize01
  split
  · split <;> rfl
  · rename_i hne
    rw [eq_num ha.1 hb.1, decide_eq_true_eq] at hne
    rw [(clamp01_spec _).1]
    have hlt : num a < num b := lt_of_le_of_ne hab hne
    have e1 := num_sub hb ha
    have d0 : 0 < num (b - a) := by
      rw [e1]
      apply rd_pos
      have h1 : key a < key b := num_lt.1 hlt
      unfold num
      rw [← sub_div]
      gcongr
      have : (1 : ℤ) ≤ key b - key a := by omega
      exact_mod_cast this
    have d1 : Finite (b - a) := by
      refine finite_of_num (sub_not_nan hb ha) ?_
      rw [abs_of_pos d0, e1]
      refine lt_of_le_of_lt (rd_mono (by linarith : num b - num a ≤ num b)) ?_
      rw [rd_num hb]
      exact lt_of_le_of_lt (le_abs_self _) (abs_num_lt hb)
    have dk : key (b - a) ≠ 0 := by
      intro hk
      rw [num, hk] at d0
      simp at d0
    cases v with
    | nan => simp [Fl.isNaN] at hv
    | fin s k hk =>
      have hvf : Finite (fin s k hk : Fl f32) := ⟨rfl, rfl⟩
      have hn := sub_not_nan hvf ha
      generalize (fin s k hk : Fl f32) - a = w at *
      cases w with
      | nan => simp [Fl.isNaN] at hn
      | inf s =>
        obtain ⟨s', k', hk', e⟩ := finite_iff.1 d1
        rw [e]; rfl
      | fin s k hk => exact div_not_nan ⟨rfl, rfl⟩ d1 dk
    | inf s =>
      obtain ⟨s', k', hk', e⟩ := finite_iff.1 d1
      rw [e]
      obtain ⟨s'', k'', hk'', e'⟩ := finite_iff.1 ha
      rw [e']; rfl

/-- What is needed of the parameters. -/
structure Steady (p : WobbleParams (Fl f32) (Fl f64)) (τ : ℝ) : Prop where
  timeout : Finite p.timeout ∧ num p.timeout = τ
  floor : Finite p.speedFloor ∧ 0 ≤ num p.speedFloor
  ceiling : Finite p.speedCeiling ∧ num p.speedFloor ≤ num p.speedCeiling

omit [Libm] in
theorem smoothed_reach {p : WobbleParams (Fl f32) (Fl f64)} (hp : Steady p τ) (hz : Sized R G τ) {st : WobbleState (Fl f32) (Fl f64)}
    (hn : n * (3 * (τ + 2 * G)) ≤ 2 ^ 17 * τ)
    (hspan : Spans R G σ st.samples t) (hsum : Sums R S k st.samples st.weightedPositionSum st.distanceSum st.durationSum) (hk : k ≤ 2 * n)
    (hph : S = 2 * (t - σ) ∧ Span (t - σ) ∨ S = 3 * (τ + 2 * G) ∧ 99 / 100 * τ ≤ t - σ) {x : Vec2 (Fl f32)} (hx : InReach R x) :
    InReach (2 * R) (smoothed p st x) := by
  have hR := hz.region
  have hR0 : 0 < R := lt_of_lt_of_le (by positivity) hR.1
  have hτ0 : 0 < τ := lt_of_lt_of_le (by positivity) hz.timeout.1
  have heps : eps = 1 / 16000000 := rfl
  have hG := hz.gap.1
  have hle := hspan.le
  unfold smoothed
  split
  · exact ⟨hx.finx, hx.finy, hx.x.trans (by linarith), hx.y.trans (by linarith)⟩
  · rename_i hne
    rw [eq_num hsum.duration.1.1 finite_zero.1, num_zero, decide_eq_true_eq] at hne
    have hn18 : (n : ℝ) ≤ 2 ^ 17 := by
      have h1 : (n : ℝ) * τ ≤ 2 ^ 17 * τ := by
        refine le_trans ?_ hn
        have : 0 ≤ (n : ℝ) := Nat.cast_nonneg _
        nlinarith [mul_nonneg this hτ0.le, mul_nonneg this hG]
      exact le_of_mul_le_mul_right h1 hτ0
    have hk' : (k : ℝ) ≤ 2 * n := by exact_mod_cast hk
    -- the errors of the sums
    obtain ⟨hΔ, herr⟩ : 0 < t - σ ∧ k * (4 * eps * S) ≤ (t - σ) / 7 := by
      rcases hph with ⟨rfl, hsp⟩ | ⟨rfl, h1⟩
      · have h0 : t - σ ≠ 0 := by
          intro h0
          have h1 := hsum.duration.2
          have h2 := hspan.duration
          rw [h0] at h1 h2
          simp only [mul_zero, zero_div, sub_zero] at h1 h2
          have h3 := abs_nonpos_iff.1 h2
          rw [h3, sub_zero] at h1
          exact hne (abs_nonpos_iff.1 h1)
        have h1 : 0 < t - σ := lt_of_le_of_ne (by linarith) (Ne.symm h0)
        refine ⟨h1, ?_⟩
        calc k * (4 * eps * (2 * (t - σ))) = (k * (8 * eps)) * (t - σ) := by ring
          _ ≤ (2 ^ 18 * (8 * eps)) * (t - σ) := by
            have : (k : ℝ) ≤ 2 ^ 18 := hk'.trans (by linarith)
            rw [heps]; gcongr
          _ ≤ 1 / 7 * (t - σ) := mul_le_mul_of_nonneg_right (by norm_num [heps]) h1.le
          _ = _ := by ring
      · have h2 : 0 < t - σ := lt_of_lt_of_le (by positivity) h1
        refine ⟨h2, ?_⟩
        calc k * (4 * eps * (3 * (τ + 2 * G))) ≤ (2 * n) * (4 * eps * (3 * (τ + 2 * G))) := by
              rw [heps]; gcongr
          _ = (8 * eps) * (n * (3 * (τ + 2 * G))) := by ring
          _ ≤ (8 * eps) * (2 ^ 17 * τ) := by rw [heps]; gcongr
          _ ≤ _ := by norm_num [heps]; linarith
    have hdur := hspan.duration
    have hd1 := hsum.duration.2.trans herr
    generalize hD : t - σ = Δ at *
    have hd2 : 85 / 100 * Δ ≤ num st.durationSum := by
      have e1 := (abs_le.1 hd1).1
      have e2 := (abs_le.1 hdur).1
      have : Δ / 2 ^ 20 ≤ 1 / 1000 * Δ := by rw [div_eq_inv_mul]; exact mul_le_mul_of_nonneg_right (by norm_num) hΔ.le
      linarith
    have hd3 : 0 < num st.durationSum := lt_of_lt_of_le (by positivity) hd2
    have wt : ∀ {f : WobbleSample (Fl f32) (Fl f64) → ℝ} {w : Fl f32}, (∀ σ s, Fine R G σ s → |f s| ≤ 101 / 100 * R * (num s.time - σ)) →
        Finite w → |num w - sumOf f st.samples| ≤ k * (4 * eps * (R * S)) →
        Finite (w / st.durationSum) ∧ |num (w / st.durationSum)| ≤ 14 / 10 * R := by
      intro f w hf hw h1
      have h2 := hspan.weighted hf
      rw [hD] at h2
      have h3 : k * (4 * eps * (R * S)) ≤ R * (Δ / 7) := by
        calc k * (4 * eps * (R * S)) = R * (k * (4 * eps * S)) := by ring
          _ ≤ _ := mul_le_mul_of_nonneg_left herr hR0.le
      have h4 : |num w| ≤ 116 / 100 * (R * Δ) := by
        refine (abs_of_near h1 h2).trans ?_
        have : 0 < R * Δ := by positivity
        linarith
      have h5 : |num w / num st.durationSum| ≤ 1375 / 1000 * R := by
        rw [abs_div, abs_of_pos hd3, div_le_iff₀ hd3]
        have := mul_le_mul_of_nonneg_left hd2 hR0.le
        nlinarith
      have hB : 1 / 2 ^ 80 ≤ R ∧ R ≤ 2 ^ 110 := ⟨le_trans (by norm_num) hR.1, hR.2.trans (by norm_num)⟩
      obtain ⟨f1, e1⟩ := div_near hw hsum.duration.1 hd3.ne' (usual_of (k := 1375 / 1000) hB rfl (by norm_num) (by norm_num)) h5
      exact ⟨f1, (abs_of_near e1 h5).trans (by rw [heps]; linarith)⟩
    obtain ⟨x1, x2⟩ := wt (f := fun s => num s.weightedPosition.x) (fun σ s hs => hs.weightedx.2) hsum.weightedx.1 hsum.weightedx.2
    obtain ⟨y1, y2⟩ := wt (f := fun s => num s.weightedPosition.y) (fun σ s hs => hs.weightedy.2) hsum.weightedy.1 hsum.weightedy.2
    have hc := normalize_not_nan hp.floor.1 hp.ceiling.1 hp.floor.2 hp.ceiling.2
      (div_not_nan hsum.distance.1 hsum.duration.1 (by rintro hk; apply hd3.ne'; simp [num, hk]))
    have hB : 1 / 2 ^ 80 ≤ 14 / 10 * R ∧ 14 / 10 * R ≤ 2 ^ 110 := by
      constructor
      · exact le_trans (by norm_num) (le_trans hR.1 (by linarith))
      · calc 14 / 10 * R ≤ 14 / 10 * 2 ^ 50 := by linarith [hR.2]
          _ ≤ 2 ^ 110 := by norm_num
    obtain ⟨r1, r2⟩ := lerp_reach x1 hx.finx hB x2 (hx.x.trans (by linarith)) hc
    obtain ⟨r3, r4⟩ := lerp_reach y1 hx.finy hB y2 (hx.y.trans (by linarith)) hc
    exact ⟨r1, r3, r2.trans (by linarith), r4.trans (by linarith)⟩

/-- The smoother stays sound, and the smoothed position is near the inputs. -/
theorem Averaging.update [LibmFair] {w w' : WobbleSmoother (Fl f32) (Fl f64)} {x c : Vec2 (Fl f32)} {time : Fl f64}
    (h : w.update x time = .ok (w', c)) (hon : w.params.isEnabled = true) (hp : Steady w.params τ) (hz : Sized R G τ)
    (hw : Averaging R G τ n w.state t) (hn : ((n + 1 : ℕ) : ℝ) * (3 * (τ + 2 * G)) ≤ 2 ^ 17 * τ) (hx : InReach R x) (hf : Succeeds G t time) :
    Averaging R G τ (n + 1) w'.state (num time) ∧ InReach (2 * R) c := by
  obtain ⟨⟨last, l1, rfl, l3, l4⟩, σ, k, S, hspan, hsum, hk, hlen, hph⟩ := hw
  have hR := hz.region
  have hR0 : 0 < R := lt_of_lt_of_le (by positivity) hR.1
  have hτ0 : 0 < τ := lt_of_lt_of_le (by positivity) hz.timeout.1
  have hG := hz.gap.1
  have hn18 : n + 1 ≤ 2 ^ 17 := by
    have h1 : ((n + 1 : ℕ) : ℝ) * τ ≤ 2 ^ 17 * τ := by
      refine le_trans ?_ hn
      have : 0 ≤ ((n + 1 : ℕ) : ℝ) := Nat.cast_nonneg _
      nlinarith [mul_nonneg this hτ0.le, mul_nonneg this hG]
    exact_mod_cast le_of_mul_le_mul_right h1 hτ0
  unfold WobbleSmoother.update at h
  rw [hon] at h
  simp only [Bool.not_true, Bool.false_eq_true, ↓reduceIte, l1] at h
  obtain ⟨st, hst, h⟩ := Outcome.bind_eq_ok.1 h
  simp only [Outcome.pure_eq, Outcome.ok.injEq, Prod.mk.injEq] at h
  obtain ⟨rfl, rfl⟩ := h
  have hfine := fine_push hz hx l3 l4 hf
  generalize hs : ({ position := x, weightedPosition := (Arith.narrow (time - last.time) : Fl f32) •ᵥ x
                     distance := Ink.distance x last.position, duration := time - last.time, time } : WobbleSample (Fl f32) (Fl f64)) = s at hfine
  have hst' : evict (time - w.params.timeout) (w.state.samples ++ [s]) (w.state.weightedPositionSum + s.weightedPosition)
      (w.state.distanceSum + s.distance) (addDouble w.state.durationSum s.duration) = .ok st := by
    rw [← hs]; exact hst
  have hsT : num s.time = num time := by rw [← hs]
  have hspan' := hspan.push hfine
  obtain ⟨g1, g2⟩ := limit_near hf.finite hf.early hp.timeout.1 (by rw [hp.timeout.2]; exact hz.timeout)
  rw [hp.timeout.2] at g2
  have hgap := hf.span hz.gap.2
  have hgap0 := hgap.nonneg
  have hup := hf.upper
  have hle := hspan.le
  rw [hsT] at hspan'
  have hTspan : Span (3 * (τ + 2 * G)) := by
    right
    obtain ⟨t1, t2⟩ := hz.timeout
    obtain ⟨t3, t4⟩ := hz.gap
    norm_num at t1 t2 t4 ⊢
    constructor <;> linarith
  have hSle : S ≤ 3 * (τ + 2 * G) := by
    rcases hph with ⟨rfl, -⟩ | ⟨rfl, -⟩
    · linarith
    · exact le_rfl
  have hlen1 : (w.state.samples ++ [s]).length = w.state.samples.length + 1 := by simp
  -- the sums after the push
  have hpush := (hsum.widen hR0.le hSle).push hspan hfine hR hTspan (by rw [hsT]; linarith) (by omega)
  obtain ⟨⟨s₀, rest, e1, e2⟩, e3, e4⟩ := evict_sums g1 hst' hspan' hpush hR hTspan (by linarith) (by rw [hlen1]; omega)
  have hlast : ∃ last', st.samples.getLast? = some last' ∧ num last'.time = num time ∧ Finite last'.time ∧ InReach R last'.position := by
    refine ⟨s, ?_, hsT, hfine.time, by rw [← hs]; exact hx⟩
    obtain ⟨pre, hpre⟩ := e3
    have h1 : (pre ++ st.samples).getLast? = some s := by rw [hpre]; simp
    have h2 : st.samples ≠ [] := by rw [e1]; simp
    rwa [List.getLast?_append_of_ne_nil _ h2] at h1
  have hlong : ∀ {σ' : ℝ}, Spans R G σ' st.samples (num time) → num time - σ' ≤ 101 / 100 * τ + G := by
    intro σ' h'
    rw [e1] at h'
    cases h' with
    | cons hs₀ h'' =>
      have := hs₀.gap.2
      have := (abs_le.1 g2).1
      linarith
  obtain ⟨σ', k', S', q1, q2, q3, q4⟩ : ∃ σ' k' S', Spans R G σ' st.samples (num time) ∧
      Sums R S' k' st.samples st.weightedPositionSum st.distanceSum st.durationSum ∧ k' + st.samples.length ≤ 2 * (n + 1) ∧
      (S' = 2 * (num time - σ') ∧ Span (num time - σ') ∨ S' = 3 * (τ + 2 * G) ∧ 99 / 100 * τ ≤ num time - σ') := by
    rcases e4 with rfl | ⟨σ', k', q1, q2, q3, q4⟩
    · dsimp only at *
      rcases hph with ⟨rfl, hsp⟩ | ⟨rfl, h1⟩
      · have hsp' : Span (num time - σ) := by
          rcases hgap with h1 | ⟨h1, h2⟩
          · rw [show num time = num last.time by linarith]; exact hsp
          · right
            have := hz.gap.2
            have := hz.timeout.2
            have := hsp.nonneg
            norm_num at *
            constructor <;> linarith
        have hsp2 : Span (2 * (num time - σ)) := by
          rcases hsp' with h1 | ⟨h1, h2⟩
          · exact .inl (by linarith)
          · right
            have := hz.gap.2
            have := hz.timeout.2
            norm_num at *
            constructor <;> linarith
        have hpush' := (hsum.widen hR0.le (by linarith : 2 * (num last.time - σ) ≤ 2 * (num time - σ))).push hspan hfine hR hsp2
          (by rw [hsT]; linarith) (by omega)
        exact ⟨σ, k + 1, _, hspan', hpush', by omega, .inl ⟨rfl, hsp'⟩⟩
      · exact ⟨σ, k + 1, _, hspan', hpush, by omega, .inr ⟨rfl, by linarith⟩⟩
    · refine ⟨σ', k', _, q1, q2, by omega, .inr ⟨rfl, ?_⟩⟩
      have := (abs_le.1 g2).2
      linarith
  refine ⟨⟨hlast, σ', k', S', q1, q2, q3, hlong q1, q4⟩, ?_⟩
  exact smoothed_reach hp hz hn q1 q2 (by omega) q4 hx

end
end Ink
