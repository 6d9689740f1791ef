import Verif.Exact.Wobble
import Verif.Exact.Loop
import Verif.Lemmas.Window
/-!
# The stylus modeler on exact numbers: everything stays finite
-/
namespace Ink
open Scalar Arith XR
noncomputable section
open Classical

/-- Position, velocity, acceleration and time of a result. -/
def Result.kin {F D : Type} (r : Result F D) : TipState F D := ⟨r.position, r.velocity, r.acceleration, r.time⟩

namespace XR

/-- The kinematic fields are real numbers. -/
def IsTip (r : Result XR XR) : Prop := ∃ q : Ref.Tip, r.kin = tip q

theorem isTip_iff {r : Result XR XR} : IsTip r ↔
    ∃ q : Ref.Tip, r.position = V q.pos ∧ r.velocity = V q.vel ∧ r.acceleration = V q.acc ∧ r.time = fin q.time := by
  simp [IsTip, Result.kin, tip]

theorem IsTip.pos {r : Result XR XR} (h : IsTip r) : ∃ z, r.position = V z := by
  obtain ⟨q, h, _⟩ := isTip_iff.1 h; exact ⟨_, h⟩

theorem rawResult_kin {last? : Option (Result XR XR)} {q? : Option Ref.Tip} (h : last?.map Result.kin = q?.map tip) (x : ℂ)
    (t : ℝ) (s : StylusState XR) : (StylusModeler.rawResult last? (V x) (fin t) s).kin = tip (Ref.raw q? (x, t)) := by
  unfold StylusModeler.rawResult Ref.raw
  cases last? with
  | none =>
    cases q? with
    | none => simp [Result.kin, tip]
    | some q => simp at h
  | some last =>
    cases q? with
    | none => simp at h
    | some q =>
      simp only [Option.map_some, Option.some.injEq, Result.kin, tip, TipState.mk.injEq] at h
      obtain ⟨h1, h2, h3, h4⟩ := h
      by_cases ht : t = q.time
      · simp [h4, ht, Result.kin, tip]
      · have h0 : t - q.time ≠ 0 := sub_ne_zero.2 ht
        simp only [Result.kin, h1, h2, h4, fin_eq, ht, decide_false, Bool.not_false, ↓reduceIte, fin_sub, narrow_eq, V_sub, V_sdiv h0,
          tip]

theorem rawResult_isTip {last? : Option (Result XR XR)} (h : ∀ r, last? = some r → IsTip r) (x : ℂ) (t : ℝ)
    (s : StylusState XR) : IsTip (StylusModeler.rawResult last? (V x) (fin t) s) := by
  obtain ⟨q?, hq⟩ : ∃ q? : Option Ref.Tip, last?.map Result.kin = q?.map tip := by
    cases last? with
    | none => exact ⟨none, rfl⟩
    | some r => obtain ⟨q, hq⟩ := h r rfl; exact ⟨some q, by simp [hq]⟩
  exact ⟨_, rawResult_kin hq x t s⟩

end XR

namespace XR

/-- All samples have finite kinematic fields. -/
def FinIn (s : StylusModeler XR XR) : Prop := ∀ r ∈ s.state.inputs, IsTip r

theorem finIn_update {s s' : StylusModeler XR XR} {x : ℂ} {t : ℝ} {st : StylusState XR} (hs : FinIn s)
    (h : s.update (V x) (fin t) st = .ok s') : FinIn s' := by
  intro r hr
  rcases List.mem_append.1 ((stylus_update_inputs h).subset hr) with hr | hr
  · exact hs r hr
  · rw [List.mem_singleton] at hr
    rw [hr]
    exact rawResult_isTip (fun r hr => hs r (List.mem_of_getLast? hr)) _ _ _

/-! ### the stroke normal -/

theorem orthogonal_eq (z : ℂ) : orthogonal (V z) = V (Complex.I * z) := by
  simp [orthogonal, V]

theorem getStrokeNormal_fin (q : Ref.Tip) (t : ℝ) (n : Vec2 XR)
    (h : getStrokeNormal (tip q) (fin t) = some n) : ∃ z, n = V z := by
  unfold getStrokeNormal at h
  dsimp only at h
  split at h
  · simp at h
  · split at h
    · exact ⟨_, by rw [← Option.some.inj h]; exact orthogonal_eq _⟩
    · split at h
      · exact ⟨_, by rw [← Option.some.inj h]; exact orthogonal_eq _⟩
      · split at h
        · exact ⟨_, by rw [← Option.some.inj h]; exact orthogonal_eq _⟩
        · rename_i h1 h2 h3
          have hv : q.vel ≠ 0 := by simpa [tip] using h1
          have ha : q.acc ≠ 0 := by simpa [tip] using h2
          have hv' := norm_ne_zero_iff.2 hv
          have ha' := norm_ne_zero_iff.2 ha
          have hne : q.vel + (q.time - t) • q.acc ≠ 0 := by
            intro hc
            apply h3
            have hq : q.vel = -((q.time - t) • q.acc) := eq_neg_of_add_eq_zero_left hc
            have hd : |dot q.vel q.acc| = ‖q.vel‖ * ‖q.acc‖ := by
              rw [hq, dot_eq_inner, inner_neg_left, real_inner_smul_left, real_inner_self_eq_norm_sq, norm_neg, norm_smul,
                abs_neg, abs_mul, Real.norm_eq_abs, abs_of_nonneg (by positivity : 0 ≤ ‖q.acc‖ ^ 2)]
              ring
            have hpos : 0 < ‖q.vel‖ * ‖q.acc‖ := by positivity
            simp only [kCosineHalfDegree, ofRatio_eq, narrow_eq, tip, V_magnitude, fin_mul, V_dot, fin_abs, fin_lt,
              decide_eq_true_eq, hd]
            norm_num
            nlinarith
          refine ⟨Complex.I * (‖q.vel‖⁻¹ • q.vel + ‖q.vel + (q.time - t) • q.acc‖⁻¹ • (q.vel + (q.time - t) • q.acc)), ?_⟩
          rw [← Option.some.inj h, ← orthogonal_eq]
          simp only [tip, fin_sub, narrow_eq, V_smul, V_add, unitVec, V_magnitude, V_sdiv hv',
            V_sdiv (norm_ne_zero_iff.2 hne)]

/-! ### projections -/

theorem nearest_frac (a b x : ℂ) : Frac (nearestPointOnSegment (V a) (V b) (V x)) := by
  unfold nearestPointOnSegment
  rw [V_eq]
  split
  · exact ⟨0, lit0, le_rfl, zero_le_one⟩
  · rename_i h
    have hab : a ≠ b := by simpa using h
    have hpos : dot (b - a) (b - a) ≠ 0 := by
      rw [dot_self]; have := norm_pos_iff.2 (sub_ne_zero.2 hab.symm); positivity
    exact ⟨clamp (dot (x - a) (b - a) / dot (b - a) (b - a)), by simp only [V_sub, V_dot, fin_div _ hpos, clamp01_fin],
      clamp_nonneg _, clamp_le_one _⟩

theorem closestLoop_frac (x : ℂ) (l : List (Result XR XR)) (hl : ∀ r ∈ l, IsTip r) (i : ℕ)
    (best : Option (RawInputProjection XR)) (d : XR) (hb : ∀ b, best = some b → Frac b.ratio) :
    ∀ b, StylusModeler.closestLoop (V x) l i best d = some b → Frac b.ratio := by
  induction l generalizing i best d with
  | nil => exact hb
  | cons a l ih =>
    cases l with
    | nil => exact hb
    | cons b l =>
      simp only [StylusModeler.closestLoop]
      obtain ⟨za, ha⟩ := (hl a (by simp)).pos
      obtain ⟨zb, hb'⟩ := (hl b (by simp)).pos
      split
      · apply ih (fun r hr => hl r (List.mem_cons_of_mem _ hr))
        rintro _ ⟨⟩
        rw [ha, hb']
        exact nearest_frac _ _ _
      · exact ih (fun r hr => hl r (List.mem_cons_of_mem _ hr)) _ _ _ hb

theorem projectToSegment_frac {a b x n : ℂ} {c : XR}
    (h : projectToSegmentAlongNormal (V a) (V b) (V x) (V n) = some c) : Frac c := by
  unfold projectToSegmentAlongNormal at h
  simp only [V_sub, V_cross] at h
  split at h
  · simp at h
  · rename_i h0
    have h0 : cross n (b - a) ≠ 0 := by simpa using h0
    split at h
    · simp at h
    · rename_i h1
      simp only [fin_div _ h0, lit0, lit1, fin_lt, Bool.or_eq_true, decide_eq_true_eq, not_or, not_lt] at h1
      exact ⟨_, by rw [← Option.some.inj h, fin_div _ h0], h1.1, h1.2⟩

theorem normalRound_frac (x n a b : ℂ) (i : ℕ) (best : StylusModeler.NormalBest XR)
    (hl : ∀ b, best.left = some b → Frac b.ratio) (hr : ∀ b, best.right = some b → Frac b.ratio) :
    (∀ c, (StylusModeler.normalRound (V x) (V n) (V a) (V b) i best).left = some c → Frac c.ratio) ∧
    ∀ c, (StylusModeler.normalRound (V x) (V n) (V a) (V b) i best).right = some c → Frac c.ratio := by
  unfold StylusModeler.normalRound
  split
  · exact ⟨hl, hr⟩
  · rename_i c hc
    have hf := projectToSegment_frac hc
    dsimp only
    split
    · split
      · exact ⟨hl, by rintro _ ⟨⟩; exact hf⟩
      · exact ⟨hl, hr⟩
    · split
      · exact ⟨by rintro _ ⟨⟩; exact hf, hr⟩
      · exact ⟨hl, hr⟩

theorem normalLoop_frac (x n : ℂ) (l : List (Result XR XR)) (hi : ∀ r ∈ l, IsTip r) (i : ℕ)
    (best : StylusModeler.NormalBest XR)
    (hl : ∀ b, best.left = some b → Frac b.ratio) (hr : ∀ b, best.right = some b → Frac b.ratio) :
    (∀ c, (StylusModeler.normalLoop (V x) (V n) l i best).left = some c → Frac c.ratio) ∧
    ∀ c, (StylusModeler.normalLoop (V x) (V n) l i best).right = some c → Frac c.ratio := by
  induction l generalizing i best with
  | nil => exact ⟨hl, hr⟩
  | cons a l ih =>
    cases l with
    | nil => exact ⟨hl, hr⟩
    | cons b l =>
      simp only [StylusModeler.normalLoop]
      obtain ⟨za, ha⟩ := (hi a (by simp)).pos
      obtain ⟨zb, hb⟩ := (hi b (by simp)).pos
      rw [ha, hb]
      have := normalRound_frac x n za zb i best hl hr
      exact ih (fun r hr => hi r (List.mem_cons_of_mem _ hr)) _ _ this.1 this.2

theorem projection_frac {s : StylusModeler XR XR} (hs : FinIn s) {q : Ref.Tip} {n : Option (Vec2 XR)}
    (hn : ∀ v, n = some v → ∃ z, v = V z) {p : Option (RawInputProjection XR)}
    (h : s.projection (tip q) n = .ok p) : ∀ b, p = some b → Frac b.ratio := by
  unfold StylusModeler.projection at h
  split at h
  · obtain ⟨z, rfl⟩ := hn _ rfl
    unfold StylusModeler.projectAlongStrokeNormal at h
    split at h
    · simp at h
    · simp only [Outcome.ok.injEq] at h
      have hf := normalLoop_frac q.pos z s.state.inputs hs 0 ⟨none, none, Arith.inf, Arith.inf⟩ (by simp) (by simp)
      have e : (tip q).position = V q.pos := rfl
      rw [← h, e]
      split
      · split
        · exact hf.2
        · exact hf.1
      · split
        · exact hf.2
        · exact hf.1
  · unfold StylusModeler.projectToClosestPoint at h
    split at h
    · simp at h
    · simp only [Outcome.ok.injEq] at h
      rw [← h]
      exact closestLoop_frac q.pos _ hs _ _ _ (by simp)

/-! ### interpolation -/

theorem interpResultWith_kin {a b : Result XR XR} {qa qb : Ref.Tip} (ha : a.kin = tip qa) (hb : b.kin = tip qb) (c : ℝ)
    (o : XR) : (interpResultWith a b (fin c) o).kin =
      tip ⟨Ref.lerp qa.pos qb.pos (clamp c), Ref.lerp qa.vel qb.vel (clamp c), Ref.lerp qa.acc qb.acc (clamp c),
        Ref.lerp qa.time qb.time (clamp c)⟩ := by
  simp only [Result.kin, tip, TipState.mk.injEq] at ha hb
  simp only [Result.kin, interpResultWith, tip, ha, hb, V_interp, interpTime_fin, Ref.lerp, smul_eq_mul, mul_comm]

/-- The answer of Query has finite kinematic fields. -/
theorem query_isTip {s : StylusModeler XR XR} (hs : FinIn s) {q : Ref.Tip} {n : Option (Vec2 XR)}
    (hn : ∀ v, n = some v → ∃ z, v = V z) {r : Result XR XR} (h : s.query (tip q) n = .ok r) : IsTip r := by
  rcases StylusModeler.query_ok h with ⟨_, rfl⟩ | ⟨_, p, r', hp, hr, rfl⟩
  · exact ⟨⟨0, 0, 0, 0⟩, by simp [StylusModeler.emptyResult, Result.kin, tip]⟩
  · have hf := projection_frac hs hn hp
    have hr' : IsTip r' := by
      unfold StylusModeler.projectedResult at hr
      split at hr
      · rename_i b
        split at hr
        · rename_i a c h1 h2
          obtain ⟨o, _, rfl⟩ := interpResult_ok hr
          obtain ⟨k, hk, _⟩ := hf b rfl
          obtain ⟨qa, ha⟩ := hs a (List.mem_of_getElem? h1)
          obtain ⟨qb, hb⟩ := hs c (List.mem_of_getElem? h2)
          rw [hk]
          exact ⟨_, interpResultWith_kin ha hb k o⟩
        · simp at hr
      · split at hr
        · rename_i a b h1 h2
          simp only [Outcome.ok.injEq] at hr
          rw [← hr]
          split
          · exact hs a (List.mem_of_mem_head? h1)
          · exact hs b (List.mem_of_getLast? h2)
        · simp at hr
    obtain ⟨qr, h1, h2, h3, h4⟩ := isTip_iff.1 hr'
    exact isTip_iff.2 ⟨⟨qr.pos, qr.vel, qr.acc, q.time⟩, h1, h2, h3, rfl⟩

/-! ### one result per tip state -/

theorem query_time {s : StylusModeler XR XR} (hne : s.state.inputs ≠ []) {q : TipState XR XR} {n : Option (Vec2 XR)}
    {r : Result XR XR} (h : s.query q n = .ok r) : r.time = q.time := by
  rcases StylusModeler.query_ok h with ⟨h0, _⟩ | ⟨_, p, r', hp, hr, rfl⟩
  · exact absurd h0 hne
  · rfl

/-- How the results come about: Query gives the raw projection of each tip state, and the result lies between that and the
tip state. `hist` are the results of the stroke before, which determine the ratio; `t` is the time of the tip state before, which
determines the stroke normal. -/
inductive Modeled (s : StylusModeler XR XR) (lp : LoopParams XR XR) :
    List (Result XR XR) → ℝ → List Ref.Tip → List (Result XR XR) → Prop
  | nil (hist : List (Result XR XR)) (t : ℝ) : Modeled s lp hist t [] []
  | cons {hist : List (Result XR XR)} {t c : ℝ} {q : Ref.Tip} {a r : Result XR XR} {qs : List Ref.Tip} {out : List (Result XR XR)}
      (hq : s.query (tip q) (getStrokeNormal (tip q) (fin t)) = .ok a)
      (hc : (loopAfter lp hist).getInterpolationValue = fin c) (h0 : 0 ≤ c) (h1 : c ≤ 1) (hoff : lp.isEnabled = false → c = 1)
      (hr : interpResult a (makeResultFromTipState (tip q) a) (fin c) = .ok r) (h : Modeled s lp (hist ++ [r]) q.time qs out) :
      Modeled s lp hist t (q :: qs) (r :: out)

theorem interpResult_velocity {a r : Result XR XR} {q : Ref.Tip} (ha : IsTip a) {c : ℝ}
    (hr : interpResult a (makeResultFromTipState (tip q) a) (fin c) = .ok r) : ∃ v, r.velocity = V v := by
  obtain ⟨o, _, rfl⟩ := interpResult_ok hr
  obtain ⟨qa, hqa⟩ := ha
  have hb : (makeResultFromTipState (tip q) a).kin = tip q := rfl
  have := interpResultWith_kin hqa hb c o
  simp only [Result.kin, tip, TipState.mk.injEq] at this
  exact ⟨_, this.2.1⟩

theorem interpResult_time {a r : Result XR XR} {q : Ref.Tip} (ht : a.time = fin q.time) {c : ℝ}
    (hr : interpResult a (makeResultFromTipState (tip q) a) (fin c) = .ok r) : r.time = fin q.time := by
  obtain ⟨o, _, rfl⟩ := interpResult_ok hr
  simp [interpResultWith, makeResultFromTipState, tip, ht, interpTime]

theorem modelStylusGo_modeled {s : StylusModeler XR XR} (hs : FinIn s) {l l' : LoopModeler XR XR} (hl : LoopFin l)
    (hne : l.params.isEnabled = true → s.state.inputs ≠ []) {hist : List (Result XR XR)} (hi : LoopIs l hist)
    {ts : List Ref.Tip} {t c : ℝ} (h0 : 0 ≤ c) (h1 : c ≤ 1) (hoff : l.params.isEnabled = false → c = 1)
    (hc : (loopAfter l.params hist).getInterpolationValue = fin c)
    {out : List (Result XR XR)} (h : modelStylusGo s (ts.map tip) l (fin c) (fin t) = .ok (l', out)) :
    Modeled s l.params hist t ts out ∧ LoopFin l' ∧ LoopIs l' (hist ++ out) := by
  induction ts generalizing l l' t out c hist with
  | nil =>
    simp only [List.map_nil, modelStylusGo, Outcome.ok.injEq, Prod.mk.injEq] at h
    rw [← h.2, ← h.1, List.append_nil]
    exact ⟨.nil _ _, hl, hi⟩
  | cons q ts ih =>
    simp only [List.map_cons, modelStylusGo] at h
    obtain ⟨a, ha, h⟩ := Outcome.bind_eq_ok.1 h
    obtain ⟨r, hr, h⟩ := Outcome.bind_eq_ok.1 h
    obtain ⟨⟨l₁, out'⟩, h₁, h⟩ := Outcome.bind_eq_ok.1 h
    simp only [Outcome.pure_eq, Outcome.ok.injEq, Prod.mk.injEq] at h
    obtain ⟨v, hv⟩ := interpResult_velocity (query_isTip hs (fun v hv => getStrokeNormal_fin q t v hv) ha) hr
    have htime : l.params.isEnabled = true → r.time = (tip q).time := fun hon =>
      interpResult_time (q := q) (query_time (hne hon) ha) hr
    have hstep := hi.step htime
    have hnext := hi.next htime
    rw [hv] at h₁ hstep hnext
    obtain ⟨hl', ⟨c', hc', h0', h1'⟩, hpar, hoff'⟩ := loop_update_fin hl v (tip q).time
    rw [hc'] at h₁ hnext
    rw [← hpar] at hnext
    have := ih hl' (by rw [hpar]; exact hne) hstep h0' h1' (fun hd => by
      rw [hpar] at hd; rw [hoff' hd, lit1] at hc'; exact (fin_inj.1 hc').symm) hnext.symm h₁
    rw [← h.2, ← h.1]
    rw [hpar, List.append_assoc] at this
    exact ⟨.cons ha hc h0 h1 hoff hr this.1, this.2⟩

theorem modelStylus_modeled {s : StylusModeler XR XR} (hs : FinIn s) {l l' : LoopModeler XR XR} (hl : LoopFin l)
    (hne : l.params.isEnabled = true → s.state.inputs ≠ []) {hist : List (Result XR XR)} (hi : LoopIs l hist)
    {ts : List Ref.Tip} {t : ℝ} {out : List (Result XR XR)} (h : modelStylus (ts.map tip) s l (fin t) = .ok (l', out)) :
    Modeled s l.params hist t ts out ∧ LoopFin l' ∧ LoopIs l' (hist ++ out) := by
  unfold modelStylus at h
  obtain ⟨c, hc, h0, h1⟩ := interpolationValue_frac hl
  rw [hc] at h
  refine modelStylusGo_modeled hs hl hne hi h0 h1 (fun hd => ?_) (hi.value.symm.trans hc) h
  have e : l.getInterpolationValue = 1 := by simp [LoopModeler.getInterpolationValue, hd]
  rw [e, lit1] at hc
  exact (fin_inj.1 hc).symm

/-- Without loop mitigation the kinematic fields of the results are the tip states. -/
theorem Modeled.kin {s : StylusModeler XR XR} (hs : FinIn s) {lp : LoopParams XR XR} (hd : lp.isEnabled = false)
    {hist : List (Result XR XR)} {ts : List Ref.Tip} {t : ℝ} {out : List (Result XR XR)} (h : Modeled s lp hist t ts out) : out.map Result.kin = ts.map tip := by
  induction h with
  | nil => rfl
  | @cons hist t c q a r qs out hq hc h0 h1 hoff hr h ih =>
    obtain ⟨qa, hqa⟩ := query_isTip hs (fun v hv => getStrokeNormal_fin q t v hv) hq
    obtain ⟨o, _, rfl⟩ := interpResult_ok hr
    have hb : (makeResultFromTipState (tip q) a).kin = tip q := rfl
    rw [List.map_cons, List.map_cons, ih, interpResultWith_kin hqa hb, hoff hd, clamp_of_mem zero_le_one le_rfl]
    congr 1
    rw [tip_inj]
    simp [Ref.lerp]

end XR
end
end Ink
