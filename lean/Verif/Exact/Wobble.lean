import Verif.Exact.Kin
/-!
# The wobble smoother on exact numbers
-/
namespace Ink
open Scalar Arith XR
noncomputable section
open Classical

namespace XR

/-- A sample as the code stores it. -/
def wsample (s : Ref.Sample) : WobbleSample XR XR := ⟨V s.pos, V (s.dur • s.pos), fin s.dist, fin s.dur, fin s.time⟩

/-- The state of the wobble smoother for a window. -/
def wstate (w : List Ref.Sample) : WobbleState XR XR :=
  ⟨w.map wsample, V (Ref.totalPos w), fin (Ref.totalDist w), fin (Ref.totalDur w)⟩

theorem evict_eq (limit : ℝ) (w : List Ref.Sample) (h : ∃ s ∈ w, limit ≤ s.time) :
    WobbleSmoother.evict (fin limit) (w.map wsample) (V (Ref.totalPos w)) (fin (Ref.totalDist w)) (fin (Ref.totalDur w)) =
      .ok (wstate (w.dropWhile fun x => decide (x.time < limit))) := by
  induction w with
  | nil => simp at h
  | cons s w ih =>
    simp only [List.map_cons, WobbleSmoother.evict, wsample, fin_lt, decide_eq_true_eq, List.dropWhile_cons]
    split
    · rename_i hlt
      have h' : ∃ s ∈ w, limit ≤ s.time := by
        obtain ⟨x, hx, hle⟩ := h
        rcases List.mem_cons.1 hx with rfl | hx
        · linarith
        · exact ⟨x, hx, hle⟩
      have e1 : V (Ref.totalPos (s :: w)) - V (s.dur • s.pos) = V (Ref.totalPos w) := by
        rw [V_sub]; simp [Ref.totalPos]
      have e2 : (fin (Ref.totalDist (s :: w)) - fin s.dist : XR) = fin (Ref.totalDist w) := by
        simp [Ref.totalDist]
      have e3 : WobbleSmoother.subDouble (fin (Ref.totalDur (s :: w))) (fin s.dur) = fin (Ref.totalDur w) := by
        simp [WobbleSmoother.subDouble, Ref.totalDur]
      rw [e1, e2, e3, ih h']
    · rfl

theorem push_eq (w : List Ref.Sample) (last : Ref.Sample) (x : ℂ) (t : ℝ) :
    WobbleSmoother.push (wstate w) (wsample last) (V x) (fin t) = wstate (w ++ [Ref.sample last x t]) := by
  simp only [WobbleSmoother.push, wstate, wsample, List.map_append, List.map_cons, List.map_nil, Ref.sample, narrow_eq,
    fin_sub, V_smul, V_distance, Ref.totalPos, Ref.totalDist, Ref.totalDur, List.sum_append, List.sum_singleton, V_add,
    fin_add, WobbleSmoother.addDouble, widen_eq, norm_sub_rev]

theorem speedRatio_mem (lo hi v : ℝ) : 0 ≤ Ref.speedRatio lo hi v ∧ Ref.speedRatio lo hi v ≤ 1 := by
  unfold Ref.speedRatio
  split
  · split <;> norm_num
  · exact ⟨clamp_nonneg _, clamp_le_one _⟩

theorem normalize01_eq (lo hi v : ℝ) : normalize01 (fin lo) (fin hi) (fin v) = fin (Ref.speedRatio lo hi v) := by
  simp only [normalize01, fin_eq, Ref.speedRatio, decide_eq_true_eq]
  split
  · simp only [fin_lt, decide_eq_true_eq, lit0, lit1]
    split <;> rfl
  · rename_i h
    have : hi - lo ≠ 0 := fun hc => h (by linarith)
    rw [fin_sub, fin_sub, fin_div _ this, clamp01_fin]
    rfl

theorem smoothed_eq {w : WobbleParams XR XR} {t lo hi : ℝ} (hw : w = ⟨true, fin t, fin lo, fin hi⟩)
    (l : List Ref.Sample) (x : ℂ) :
    WobbleSmoother.smoothed w (wstate l) (V x) = V (Ref.smoothed lo hi l x) := by
  subst hw
  simp only [WobbleSmoother.smoothed, wstate, lit0, fin_eq, decide_eq_true_eq, Ref.smoothed]
  split
  · rfl
  · rename_i h
    have hm := speedRatio_mem lo hi (Ref.totalDist l / Ref.totalDur l)
    rw [V_sdiv h, fin_div _ h, normalize01_eq, V_interp, clamp_of_mem hm.1 hm.2]
    rfl

theorem dropWhile_last {α : Type} (f : α → Bool) (l : List α) (a : α) (h : f a = false) :
    ((l ++ [a]).dropWhile f).getLast? = some a := by
  induction l with
  | nil => simp [h]
  | cons b l ih =>
    rw [List.cons_append, List.dropWhile_cons]
    split
    · exact ih
    · rw [List.getLast?_cons, List.getLast?_append]
      simp

/-- One Update of the wobble smoother. -/
theorem wobble_update_eq {w : WobbleSmoother XR XR} {t lo hi : ℝ} (hw : w.params = ⟨true, fin t, fin lo, fin hi⟩)
    (ht : 0 ≤ t) {l : List Ref.Sample} {last : Ref.Sample} (hs : w.state = wstate l) (hl : l.getLast? = some last)
    (x : ℂ) (time : ℝ) :
    w.update (V x) (fin time) =
      .ok ({ w with state := wstate (Ref.slide t l (Ref.sample last x time)) },
        V (Ref.smoothed lo hi (Ref.slide t l (Ref.sample last x time)) x)) := by
  unfold WobbleSmoother.update
  have hlast : (wstate l).samples.getLast? = some (wsample last) := by
    simp [wstate, List.getLast?_map, hl]
  rw [hw]
  simp only [Bool.not_true, Bool.false_eq_true, ↓reduceIte, hs, hlast, push_eq, fin_sub]
  have he := evict_eq (time - t) (l ++ [Ref.sample last x time])
    ⟨Ref.sample last x time, by simp, by simp [Ref.sample, ht]⟩
  have hd : ((l ++ [Ref.sample last x time]).dropWhile fun s => decide (s.time < time - t)) =
      Ref.slide t l (Ref.sample last x time) := by
    unfold Ref.slide
    congr 1
    funext s
    rw [decide_eq_decide]
    show _ ↔ t < time - s.time
    constructor <;> intro <;> linarith
  rw [hd] at he
  simp only [wstate] at he ⊢
  rw [he]
  simp only [Outcome.ok_bind, Outcome.pure_eq, Outcome.ok.injEq, Prod.mk.injEq]
  exact ⟨trivial, smoothed_eq rfl _ _⟩

theorem slide_last (t : ℝ) (ht : 0 ≤ t) (l : List Ref.Sample) (s : Ref.Sample) : (Ref.slide t l s).getLast? = some s :=
  dropWhile_last _ _ _ (by simp [ht])

end XR
end
end Ink
