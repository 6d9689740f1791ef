import Verif.Exact.Mitigate
import Verif.Props.Times
import Verif.Props.Projection
/-!
# Loop contraction mitigation on exact numbers: C35, C51

Mitigation is enabled and its parameters are numbers (`Mitigates`); validation then makes sure of the rest (`Mitigates.valid`).
-/
namespace Ink
open Scalar Arith XR
noncomputable section
open Classical

variable {ops : List (Op XR XR)} {rs : List (Response XR XR)} {m : StrokeModeler XR XR} {p : StrokeModelParams XR XR}
  {e : Event XR XR} {a b : List (Event XR XR)} {f : Event XR XR} {out : List (Result XR XR)} {M : Ref.Mitigation}

/-- Times and speeds of results. -/
def speedsOf (hist : List (Result XR XR)) : List Ref.Speed := hist.map fun r => ⟨toReal r.time, ‖toPoint r.velocity‖⟩

theorem validLoop (h : validateStrokeModelParams p = .ok) : validateLoopParams p.position.loop = .ok :=
  (andThen_ok (validParts h).2.2.1).1

/-- The results of a stroke after the Down have finite velocities. -/
theorem velocity_fin (h : Session ops rs m) (hr : Regular ops rs) (hp : (known ops rs).params = some p)
    (hl : LoopOk p.position.loop) (hs : strokeOf ops rs = e :: a) : ∀ r ∈ resultsOf a, ∃ z, r.velocity = V z := by
  intro r hmem
  obtain ⟨g, hg, hrg⟩ := List.mem_flatMap.1 hmem
  obtain ⟨a₁, a₂, rfl⟩ := List.append_of_mem hg
  cases hres : g.results with
  | none => simp [hres] at hrg
  | some out =>
    rw [hres, Option.getD_some] at hrg
    obtain ⟨P, tips, _, _, _, _, h1⟩ := C37_between_exact h hr hp hl hs hres
    obtain ⟨k, hk⟩ := List.mem_iff_getElem?.1 hrg
    obtain ⟨q, raw, c, _, _, _, _, _, _, h2, _⟩ := h1 k r hk
    exact ⟨_, h2⟩

theorem resultsOf_split (e f : Event XR XR) (a b : List (Event XR XR)) (hout : f.results = some out) :
    resultsOf (e :: (a ++ f :: b)) = (e.results.getD []) ++ (resultsOf a ++ (out ++ resultsOf b)) := by
  simp [resultsOf, hout]

/-- The results before the `k`-th one of a call: their speeds are numbers, and they are in order. -/
theorem history (h : Session ops rs m) (hr : Regular ops rs) (hp : (known ops rs).params = some p)
    (hl : LoopOk p.position.loop) (hs : strokeOf ops rs = e :: (a ++ f :: b)) (hout : f.results = some out) (k : ℕ) :
    speeds (resultsOf a ++ out.take k) = (speedsOf (resultsOf a ++ out.take k)).map sample ∧
      ((speedsOf (resultsOf a ++ out.take k)).map Ref.Speed.time).Pairwise (· ≤ ·) := by
  have hsub : (resultsOf a ++ out.take k).Sublist (resultsOf (e :: (a ++ f :: b))) := by
    rw [resultsOf_split e f a b hout]
    refine List.Sublist.trans ?_ (List.sublist_append_right _ _)
    exact List.Sublist.append (List.Sublist.refl _) ((List.take_sublist _ _).trans (List.sublist_append_left _ _))
  obtain ⟨ts, h1, h2⟩ := C17_times_monotone_exact h hr hp hl (by rw [hs]; simp)
  rw [hs] at h1
  have h3 : (resultsOf (e :: (a ++ f :: b))).map (fun r => toReal r.time) = ts := by
    have := congrArg (List.map toReal) h1
    rw [List.map_map, List.map_map] at this
    exact this.trans (by simp [Function.comp_def])
  refine ⟨?_, ?_⟩
  · simp only [speeds, speedsOf, List.map_map]
    refine List.map_congr_left fun r hmem => ?_
    have hv : ∃ z, r.velocity = V z := by
      refine velocity_fin h hr hp hl hs r ?_
      have : resultsOf (a ++ f :: b) = resultsOf a ++ (out ++ resultsOf b) := by simp [resultsOf, hout]
      rw [this]
      rcases List.mem_append.1 hmem with hm | hm
      · exact List.mem_append_left _ hm
      · exact List.mem_append_right _ (List.mem_append_left _ (List.mem_of_mem_take hm))
    obtain ⟨z, hz⟩ := hv
    have ht : ∃ t, r.time = fin t := by
      have : r.time ∈ ts.map fin := h1 ▸ List.mem_map_of_mem (hsub.subset hmem)
      obtain ⟨t, _, ht⟩ := List.mem_map.1 this
      exact ⟨t, ht.symm⟩
    obtain ⟨t, ht⟩ := ht
    simp [sample, hz, ht]
  · rw [← h3] at h2
    have := h2.sublist (hsub.map _)
    simpa [speedsOf, List.map_map, Function.comp_def] using this

/-- C35: with mitigation enabled, every result lies between a point of the polyline of the raw samples (0) and the modeled tip state
(1) at the ratio that the header gives for the speeds of the results of the stroke before it, except for that of the Down: 1 if there
are none, otherwise the strength for the mean of the recent ones (`Ref.Mitigation.ratio`; C51 tells which those are). -/
theorem C35_ratio_exact (h : Session ops rs m) (hr : Regular ops rs) (hp : (known ops rs).params = some p)
    (hm : Mitigates p.position.loop M) (hs : strokeOf ops rs = e :: (a ++ f :: b)) (hout : f.results = some out) :
    M.Valid ∧ ∃ P tips, Realizes p P ∧ P.Valid ∧ (Ref.advance P (state P e a) (touch f.input)).2 = some tips ∧
      out.length = tips.length ∧ ∀ (k : ℕ) (r : Result XR XR), out[k]? = some r → ∃ q raw c, tips[k]? = some q ∧
        (∃ x y, [x, y] <:+: polyline P e (a ++ [f]) ∧ ∃ u, 0 ≤ u ∧ u ≤ 1 ∧ raw = Ref.between x y u) ∧
        c = M.ratio (speedsOf (resultsOf a ++ out.take k)) ∧ r.position = V (Ref.lerp raw.pos q.pos c) ∧
        r.velocity = V (Ref.lerp raw.vel q.vel c) ∧ r.acceleration = V (Ref.lerp raw.acc q.acc c) ∧ r.time = fin q.time := by
  obtain ⟨_, m₀, _, _, hc, _⟩ := h.stroke hr hp hs
  have hv := hm.valid (validLoop hc.valid)
  have hl := hm.ok hv
  have hn := (validParts hc.valid).1 hm.on
  obtain ⟨P, tips, j, h1, h2, h3, hj, _, h5⟩ := C37_results_explained_exact h hr hp hl hs hout
  refine ⟨hv, P, tips, h1, h2, h3, h5.length, fun k r hk => ?_⟩
  have hlen : 2 ≤ (polyline P e (a ++ [f])).length := by rw [polyline_length]; simp
  obtain ⟨t, q, _, h6, _, h8⟩ := h5.get hk
  obtain ⟨foot, c, hx⟩ := h8 (by simp [hn])
  obtain ⟨x, y, u, i1, i2, i3, _, i5, _⟩ := pair_of_foot hlen hj (pos := ((polyline P e (a ++ [f])).drop j).map Ref.Tip.pos) (by simp)
    q.pos (foot := foot) (fun k u hku => by have := hx.proj; rw [hku] at this; exact this.on)
  obtain ⟨g1, g2⟩ := history h hr hp hl hs hout k
  have hc' : c = M.ratio (speedsOf (resultsOf a ++ out.take k)) := by
    have := loopAfter_ratio hm hv g1 (by
      intro s hs
      obtain ⟨r, _, rfl⟩ := List.mem_map.1 hs
      exact norm_nonneg _) g2
    rw [hx.ratio] at this
    exact fin_inj.1 this
  refine ⟨q, _, c, h6, ⟨x, y, i1, u, i2, i3, rfl⟩, hc', ?_⟩
  have hkin := hx.kin
  simp only [Result.kin, tip, TipState.mk.injEq, Ref.between, Ref.footSample, i5] at hkin
  exact ⟨hkin.1, hkin.2.1, hkin.2.2.1, hkin.2.2.2.trans (by simp [Ref.lerp])⟩

/-- C35: the strength is between the two configured ones, is the one at the lower bound up to that speed and the one at the upper bound
from that speed on (unless the bounds coincide: then it is the one at the lower bound for all speeds), and never increases with speed.
Without a history the ratio is 1. -/
theorem C35_strength (hv : M.Valid) :
    (∀ v, M.atHi ≤ M.strength v ∧ M.strength v ≤ M.atLo) ∧ (∀ v, v ≤ M.lo → M.strength v = M.atLo) ∧
    (M.lo < M.hi → ∀ v, M.hi ≤ v → M.strength v = M.atHi) ∧ (M.lo = M.hi → ∀ v, M.strength v = M.atLo) ∧
    (∀ v w, v ≤ w → M.strength w ≤ M.strength v) ∧ M.ratio [] = 1 ∧
    (∀ l, l ≠ [] → M.ratio l = M.strength (Ref.meanSpeed (M.recent l))) ∧ ∀ l, 0 ≤ M.ratio l ∧ M.ratio l ≤ 1 := by
  refine ⟨hv.strength_mem, fun v h => if_pos (.inl h), fun hlt v h => ?_, fun h v => if_pos (.inr h.ge), fun v w h => hv.strength_anti h,
    if_pos rfl, fun l hl => if_neg hl, fun l => ?_⟩
  · unfold Ref.Mitigation.strength
    rw [if_neg (by push Not; exact ⟨by linarith, hlt⟩), if_pos h]
  · unfold Ref.Mitigation.ratio
    split
    · exact ⟨zero_le_one, le_rfl⟩
    · have := hv.strength_mem (Ref.meanSpeed (M.recent l))
      exact ⟨hv.atHi.trans this.1, this.2.trans hv.atLo⟩

/-! ## C51 -/

namespace Ref

theorem newest_length (n : ℕ) (l : List Speed) : (newest n l).length = min l.length n := by
  rw [newest, List.length_drop]; omega

theorem newest_getLast? {n : ℕ} {l : List Speed} (hn : 0 < n) : (newest n l).getLast? = l.getLast? := by
  unfold newest
  cases hl : l with
  | nil => simp
  | cons x l' =>
    rw [List.getLast?_drop, if_neg (by simp; omega)]

/-- Entries of an ordered history that are at most `w` old are the newest ones. -/
theorem mem_newest_within {l : List Speed} (ho : (l.map Speed.time).Pairwise (· ≤ ·)) {t w : ℝ} {i : ℕ} (hi : i < l.length) :
    t - l[i].time ≤ w ↔ l.length - (l.countP fun s => t - s.time ≤ w) ≤ i := by
  induction l generalizing i with
  | nil => simp at hi
  | cons s l ih =>
    rw [List.map_cons, List.pairwise_cons] at ho
    have hle : l.countP (fun s => decide (t - s.time ≤ w)) ≤ l.length := List.countP_le_length
    by_cases hs : t - s.time ≤ w
    · have hall : ∀ x ∈ s :: l, t - x.time ≤ w := by
        intro x hx
        rcases List.mem_cons.1 hx with rfl | hx
        · exact hs
        · have := ho.1 x.time (List.mem_map_of_mem hx); linarith
      have : (s :: l).countP (fun s => t - s.time ≤ w) = (s :: l).length :=
        List.countP_eq_length.2 fun x hx => by simpa using hall x hx
      rw [this]
      simpa using hall _ (List.getElem_mem hi)
    · rw [List.countP_cons_of_neg (by simpa using hs)]
      cases i with
      | zero =>
        simp only [List.getElem_cons_zero, List.length_cons, nonpos_iff_eq_zero, hs, false_iff]
        omega
      | succ i =>
        simp only [List.length_cons, Nat.add_lt_add_iff_right] at hi
        simp only [List.getElem_cons_succ, List.length_cons]
        rw [ih ho.2 hi]
        omega

theorem span_newest {l : List Speed} {x : Speed} (hx : l.getLast? = some x) {k : ℕ} (hk : 0 < k) (hkl : k ≤ l.length) :
    span (newest k l) = x.time - (l[l.length - k]'(by omega)).time := by
  unfold span
  rw [newest_getLast? hk, hx]
  have : (newest k l).head? = some (l[l.length - k]'(by omega)) := by
    rw [newest, List.head?_drop, List.getElem?_eq_getElem (by omega)]
  rw [this]

end Ref

/-- C51: what is averaged are the newest results: all those that are at most min_speed_sampling_window older than the last one, and at
least min_discrete_speed_samples (or all, if there are fewer). -/
theorem C51_recent {l : List Ref.Speed} (ho : (l.map Ref.Speed.time).Pairwise (· ≤ ·)) {x : Ref.Speed} (hx : l.getLast? = some x) :
    M.recent l <:+ l ∧ ∀ (i : ℕ) (hi : i < l.length),
      (l.length - (M.recent l).length ≤ i ↔ x.time - l[i].time ≤ M.window ∨ l.length - i ≤ M.count) := by
  refine ⟨List.drop_suffix _ _, fun i hi => ?_⟩
  rw [Ref.mem_newest_within ho hi]
  unfold Ref.Mitigation.recent
  rw [Ref.newest_length, Ref.within, hx]
  dsimp only
  have : l.countP (fun s => decide (x.time - s.time ≤ M.window)) ≤ l.length := List.countP_le_length
  omega

/-- C51: the same about the results of a stroke: the `k`-th result of an input lies between raw and modeled state at the strength for
the mean speed of those of the results before it (`hist`) that are at most min_speed_sampling_window older than the last of
them or among the last min_discrete_speed_samples. -/
theorem C51_window_exact (h : Session ops rs m) (hr : Regular ops rs) (hp : (known ops rs).params = some p)
    (hm : Mitigates p.position.loop M) (hs : strokeOf ops rs = e :: (a ++ f :: b)) (hout : f.results = some out) {k : ℕ}
    {r : Result XR XR} (hk : out[k]? = some r) {hist : List Ref.Speed} (hh : hist = speedsOf (resultsOf a ++ out.take k))
    {x : Ref.Speed} (hx : hist.getLast? = some x) :
    ∃ (P : Ref.Params) (tips : List Ref.Tip) (q raw : Ref.Tip) (kept : List Ref.Speed), Realizes p P ∧
      (Ref.advance P (state P e a) (touch f.input)).2 = some tips ∧ tips[k]? = some q ∧ kept <:+ hist ∧
      (∀ (i : ℕ) (hi : i < hist.length),
        (hist.length - kept.length ≤ i ↔ x.time - hist[i].time ≤ M.window ∨ hist.length - i ≤ M.count)) ∧
      r.position = V (Ref.lerp raw.pos q.pos (M.strength (Ref.meanSpeed kept))) ∧
      r.velocity = V (Ref.lerp raw.vel q.vel (M.strength (Ref.meanSpeed kept))) ∧
      r.acceleration = V (Ref.lerp raw.acc q.acc (M.strength (Ref.meanSpeed kept))) ∧
      (∃ y z, [y, z] <:+: polyline P e (a ++ [f]) ∧ ∃ u, 0 ≤ u ∧ u ≤ 1 ∧ raw = Ref.between y z u) := by
  obtain ⟨hv, P, tips, h1, _, h3, _, h5⟩ := C35_ratio_exact h hr hp hm hs hout
  obtain ⟨q, raw, c, h6, h7, h8, h9, h10, h11, _⟩ := h5 k r hk
  obtain ⟨_, g2⟩ := history h hr hp (hm.ok hv) hs hout k
  rw [← hh] at g2 h8
  obtain ⟨i1, i2⟩ := C51_recent (M := M) g2 hx
  have hne : hist ≠ [] := by rintro h0; rw [h0] at hx; simp at hx
  rw [Ref.Mitigation.ratio, if_neg hne] at h8
  rw [h8] at h9 h10 h11
  exact ⟨P, tips, q, raw, M.recent hist, h1, h3, h6, i1, i2, h9, h10, h11, h7⟩

/-- C51: how this differs from the header. If no result is exactly as old as the window, the header asks for one more result than the
window holds, unless min_discrete_speed_samples is larger or there are no more. -/
theorem C51_documented (hv : M.Valid) {l : List Ref.Speed} (ho : (l.map Ref.Speed.time).Pairwise (· ≤ ·)) {x : Ref.Speed}
    (hx : l.getLast? = some x) (hne : ∀ s ∈ l, x.time - s.time ≠ M.window) (n : ℕ) :
    M.Documented l n ↔ n = min l.length (max M.count (Ref.within M.window l + 1)) := by
  have hlen : 0 < l.length := by
    rw [List.length_pos_iff]; rintro rfl; simp at hx
  have hc := hv.count
  have hw : Ref.within M.window l = l.countP fun s => x.time - s.time ≤ M.window := by rw [Ref.within, hx]
  have hle : l.countP (fun s => decide (x.time - s.time ≤ M.window)) ≤ l.length := List.countP_le_length
  have key : ∀ k, (M.count ≤ k ∧ k ≤ l.length ∧ M.window ≤ Ref.span (Ref.newest k l)) ↔
      (M.count ≤ k ∧ k ≤ l.length ∧ Ref.within M.window l + 1 ≤ k) := by
    intro k
    refine and_congr_right fun h1 => and_congr_right fun h2 => ?_
    have hk : 0 < k := by omega
    rw [Ref.span_newest hx hk h2]
    have h3 : l.length - k < l.length := by omega
    have h4 := Ref.mem_newest_within ho (t := x.time) (w := M.window) h3
    have h5 := hne _ (List.getElem_mem h3)
    rw [hw]
    constructor
    · intro h
      have : ¬ (x.time - l[l.length - k].time ≤ M.window) := not_le.2 (lt_of_le_of_ne h h5.symm)
      rw [h4] at this
      omega
    · intro h
      have : ¬ (l.length - (l.countP fun s => x.time - s.time ≤ M.window) ≤ l.length - k) := by omega
      rw [← h4, not_le] at this
      exact this.le
  unfold Ref.Mitigation.Documented
  simp only [key]
  rw [hw]
  constructor
  · rintro (⟨h1, h2⟩ | ⟨h1, rfl⟩)
    · have := h2 (max M.count (l.countP (fun s => x.time - s.time ≤ M.window) + 1)) ⟨by omega, by omega, by omega⟩
      omega
    · have := h1 l.length
      omega
  · intro hn
    by_cases h : M.count ≤ l.length ∧ l.countP (fun s => x.time - s.time ≤ M.window) + 1 ≤ l.length
    · exact .inl ⟨by omega, fun k hk => by omega⟩
    · exact .inr ⟨fun k hk => h (by omega), by omega⟩

section Examples
open Ex

/-- The parameters of `xloop`, with one result per second, and averaging over at least 1.5 seconds and at least one result. -/
def yloop : StrokeModelParams XR XR :=
  { xloop with
    position := { xloop.position with
      loop := { xloop.position.loop with minSpeedSamplingWindow := fin (3 / 2), minDiscreteSpeedSamples := 1 } }
    sampling := { xloop.sampling with minOutputRate := fin 1 } }

/-- Five inputs, one per second. -/
def yinputs : List (Input XR XR) :=
  [xin .down (pt 0 0) 0 0.2 1 2, xin .move (pt 1 0) 1 0.3 1.1 2.1, xin .move (pt 2 1) 2 0.4 1.2 2.2,
   xin .move (pt 3 1) 3 0.4 1.2 2.2, xin .move (pt 4 1) 4 0.4 1.2 2.2]

theorem yloop_valid : validateStrokeModelParams yloop = .ok := by unfold yloop xloop xparams; valid

def yM : Ref.Mitigation := ⟨0, 100, 1, 1 / 2, 3 / 2, 1⟩

theorem yloop_mitigates : Mitigates yloop.position.loop yM := ⟨rfl, rfl, rfl, rfl, rfl, rfl, rfl⟩

theorem ystroke : ∃ rs m, Session (calls yloop yinputs) rs m ∧ Regular (calls yloop yinputs) rs ∧
    (known (calls yloop yinputs) rs).params = some yloop ∧ (strokeOf (calls yloop yinputs) rs).map Event.input = yinputs ∧
    ∀ e ∈ strokeOf (calls yloop yinputs) rs, e.results.isSome = true := by
  have hn : ∀ {e e' : EventType} {z z' : ℂ} {t t' pr pr' tl tl' o o' : ℝ}, t' - t ≤ 20 →
      Near yloop (xin e z t pr tl o) (xin e' z' t' pr' tl' o') := by
    intro e e' z z' t t' pr pr' tl tl' o o' ht
    refine .inr ⟨rfl, ?_⟩
    simpa [xin, yloop, xloop, xparams] using ht
  exact exists_stroke yloop_valid rfl ⟨isFinite_fin _, isFinite_fin _, isFinite_fin _⟩ (good_fin _)
    ⟨fits_xin (by norm_num), hn (by norm_num), good_fin _, .inl rfl, fits_xin (by norm_num), hn (by norm_num), good_fin _, .inl rfl,
     fits_xin (by norm_num), hn (by norm_num), good_fin _, .inl rfl, fits_xin (by norm_num), hn (by norm_num), good_fin _, .inl rfl,
     trivial⟩ (by simp)

/-- A Move one second after the last input has one result, at its time. -/
theorem one_result {ops : List (Op XR XR)} {rs : List (Response XR XR)} {m : StrokeModeler XR XR} (h : Session ops rs m)
    (hr : Regular ops rs) (hp : (known ops rs).params = some yloop) {e f : Event XR XR} {a b : List (Event XR XR)}
    (hs : strokeOf ops rs = e :: (a ++ f :: b)) (hf : f.input.eventType = .move) {out : List (Result XR XR)}
    (hout : f.results = some out) {i : Input XR XR} (hi : (acceptedOf (e :: a)).getLast? = some i) {t : ℝ} (hit : i.time = fin t)
    (hft : f.input.time = fin (t + 1)) : out.map (fun r => toReal r.time) = [t + 1] := by
  obtain ⟨P, m₀, h1, h2, hc, _⟩ := h.stroke hr hp hs
  have hl := yloop_mitigates.ok (yloop_mitigates.valid (validLoop hc.valid))
  obtain ⟨tips, prev, h3, h4, h5, h6, h7, h8, h9, _⟩ := course_answer h1 h2 hc hout
  have htouch : touch f.input = .move (toPoint f.input.position) (toReal f.input.time) := by simp [touch, hf]
  rw [htouch] at h3
  obtain ⟨n, hn, _, htips, _⟩ := Ref.move_answer h3
  obtain ⟨_, i2, _⟩ := Ref.move_times h2 h6 h7 h3
  rw [hi, Option.some.injEq] at h4
  subst h4
  rw [hit, fin_inj] at h5
  have hang : P.maxAngle = none := by
    have := h1.maxAngle
    cases ha : P.maxAngle with
    | none => rfl
    | some x =>
      rw [ha] at this
      have := fin_inj.1 this
      have := (h2.maxAngle x ha).1
      linarith
  have hrate : P.rate = 1 := (fin_inj.1 h1.rate).symm
  have hn1 : n = 1 := by
    rw [hn]
    unfold Ref.steps
    rw [hang, hft, ← h5, hrate]
    norm_num
  have hlen : tips.length = 1 := by rw [htips, Ref.follow_length, Ref.upsample_length, hn1]; rfl
  obtain ⟨q, rfl⟩ := List.length_eq_one_iff.1 hlen
  have := congrArg (List.map toReal) (h9 hl)
  rw [List.map_map] at this
  refine this.trans ?_
  have := i2 q rfl
  rw [hft] at this
  simp [this]

/-- C51 is refuted: in the stroke `yinputs`, results at 1, 2 and 3 seconds precede that of the last Move. The header asks for the mean
of all three speeds, as only those span 1.5 seconds; the code averages the last two. -/
theorem C51_refuted : ∃ rs m e a f b out, Session (calls yloop yinputs) rs m ∧ Regular (calls yloop yinputs) rs ∧
    (known (calls yloop yinputs) rs).params = some yloop ∧ Mitigates yloop.position.loop yM ∧
    strokeOf (calls yloop yinputs) rs = e :: (a ++ f :: b) ∧ f.results = some out ∧ out ≠ [] ∧
    (yM.recent (speedsOf (resultsOf a))).length = 2 ∧ ∀ n, yM.Documented (speedsOf (resultsOf a)) n ↔ n = 3 := by
  obtain ⟨rs, m, h1, h2, h3, h4, h5⟩ := ystroke
  obtain ⟨es, hes⟩ : ∃ es, strokeOf (calls yloop yinputs) rs = es := ⟨_, rfl⟩
  rw [hes] at h4 h5
  match es, h4, h5 with
  | [⟨i₀, r₀⟩, ⟨i₁, r₁⟩, ⟨i₂, r₂⟩, ⟨i₃, r₃⟩, ⟨i₄, r₄⟩], h4, h5 =>
    simp only [List.map_cons, List.map_nil, yinputs, List.cons.injEq, and_true] at h4
    obtain ⟨rfl, rfl, rfl, rfl, rfl⟩ := h4
    simp only [List.mem_cons, List.not_mem_nil, or_false, forall_eq_or_imp, forall_eq, Option.isSome_iff_exists] at h5
    obtain ⟨⟨o₀, rfl⟩, ⟨o₁, rfl⟩, ⟨o₂, rfl⟩, ⟨o₃, rfl⟩, ⟨o₄, rfl⟩⟩ := h5
    have t1 := one_result h1 h2 h3 (a := []) hes rfl rfl rfl (t := 0) rfl (by simp [xin])
    have t2 := one_result h1 h2 h3 (a := [_]) hes rfl rfl rfl (t := 1) rfl (by simp [xin]; norm_num)
    have t3 := one_result h1 h2 h3 (a := [_, _]) hes rfl rfl rfl (t := 2) rfl (by simp [xin]; norm_num)
    have t4 := one_result h1 h2 h3 (a := [_, _, _]) hes rfl rfl rfl (t := 3) rfl (by simp [xin]; norm_num)
    have ht : (speedsOf (resultsOf [⟨xin .move (pt 1 0) 1 0.3 1.1 2.1, some o₁⟩, ⟨xin .move (pt 2 1) 2 0.4 1.2 2.2, some o₂⟩,
        ⟨xin .move (pt 3 1) 3 0.4 1.2 2.2, some o₃⟩])).map Ref.Speed.time = [1, 2, 3] := by
      simp only [speedsOf, resultsOf, List.flatMap_cons, List.flatMap_nil, Option.getD_some, List.append_nil, List.map_append,
        List.map_map, Function.comp_def, t1, t2, t3]
      norm_num
    refine ⟨rs, m, _, [_, _, _], _, [], o₄, h1, h2, h3, yloop_mitigates, hes, rfl, ?_, ?_⟩
    · rintro rfl; simp at t4
    · generalize speedsOf _ = l at ht
      match l, ht with
      | [⟨_, v₁⟩, ⟨_, v₂⟩, ⟨_, v₃⟩], ht =>
        simp only [List.map_cons, List.map_nil, List.cons.injEq, and_true] at ht
        obtain ⟨rfl, rfl, rfl⟩ := ht
        have hw : Ref.within yM.window [⟨1, v₁⟩, ⟨2, v₂⟩, ⟨3, v₃⟩] = 2 := by
          simp [Ref.within, yM, List.countP_cons]; norm_num
        refine ⟨?_, fun n => ?_⟩
        · rw [Ref.Mitigation.recent, Ref.newest_length, hw]; rfl
        · rw [C51_documented (yloop_mitigates.valid (validLoop yloop_valid)) (x := ⟨3, v₃⟩) (by simp; norm_num) rfl
            (by simp [yM]; norm_num), hw]
          simp [yM]
      | [], ht => simp at ht
      | [_], ht => simp at ht
      | [_, _], ht => simp at ht
      | _ :: _ :: _ :: _ :: _, ht => simp at ht
  | [], h4, _ => simp [yinputs] at h4
  | [_], h4, _ => simp [yinputs] at h4
  | [_, _], h4, _ => simp [yinputs] at h4
  | [_, _, _], h4, _ => simp [yinputs] at h4
  | [_, _, _, _], h4, _ => simp [yinputs] at h4
  | _ :: _ :: _ :: _ :: _ :: _ :: _, h4, _ => simp [yinputs] at h4

/-- A strength between the bounds: at half the upper speed bound half the mitigation. -/
example : yM.strength 50 = 3 / 4 := by norm_num [Ref.Mitigation.strength, yM]

end Examples
end
end Ink
