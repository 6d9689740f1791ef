import Verif.Lemmas.Motion
import Verif.Lemmas.Swing
import Mathlib.Analysis.Convex.Combination
/-!
# A spring with much drag

With `4 ≤ mass * drag ^ 2` the spring does not swing, and steps of at most `1 / drag` keep it so.
-/
namespace Ink.Ref
noncomputable section

/-- There is enough drag for the spring not to swing, and the output rate is high enough for the drag. -/
structure Params.Damped (P : Params) : Prop where
  drag : 4 ≤ P.mass * P.drag ^ 2
  rate : P.drag ≤ P.rate

/-- The two rates of decay of a spring that does not swing. -/
structure Rates (P : Params) (α β : ℝ) : Prop where
  pos : 0 < α
  pos' : 0 < β
  le : β ≤ α
  sum : α + β = P.drag
  prod : α * β = P.mass⁻¹

theorem rates_of_damped {P : Params} (hv : P.Valid) (h : P.Damped) : ∃ α β, Rates P α β := by
  have hM := hv.mass
  have hd := hv.drag
  have hD : 0 ≤ P.drag ^ 2 - 4 * P.mass⁻¹ := by
    have := h.drag
    rw [mul_comm] at this
    have := (div_le_iff₀ hM).2 this
    rw [div_eq_mul_inv] at this
    linarith
  set s := Real.sqrt (P.drag ^ 2 - 4 * P.mass⁻¹) with hs
  have hss : s ^ 2 = P.drag ^ 2 - 4 * P.mass⁻¹ := Real.sq_sqrt hD
  have hs0 : 0 ≤ s := Real.sqrt_nonneg _
  have hMi : 0 < P.mass⁻¹ := inv_pos.2 hM
  have hsd : s < P.drag := by nlinarith
  exact ⟨(P.drag + s) / 2, (P.drag - s) / 2, by linarith, by linarith, by linarith, by ring, by nlinarith⟩

theorem comb3_mem {S : Set ℂ} (hS : Convex ℝ S) {x y z : ℂ} (hx : x ∈ S) (hy : y ∈ S) (hz : z ∈ S) {a b c : ℝ} (ha : 0 ≤ a) (hb : 0 ≤ b)
    (hc : 0 ≤ c) (h : a + b + c = 1) : a • x + b • y + c • z ∈ S := by
  have := hS.sum_mem (t := Finset.univ) (w := ![a, b, c]) (z := ![x, y, z])
    (by intro i _; fin_cases i <;> simpa) (by simpa [Fin.sum_univ_three] using h) (by intro i _; fin_cases i <;> simpa)
  simpa [Fin.sum_univ_three] using this

/-- The point the tip is heading for. -/
def heading (α : ℝ) (q : Tip) : ℂ := q.pos + α⁻¹ • q.vel

section Step
variable {P : Params} {α β : ℝ}

theorem vel_heading (h : Rates P α β) (q : Tip) : q.vel = α • (heading α q - q.pos) := by
  have := h.pos.ne'
  simp [heading, this]

/-- One step in terms of the position and the point the tip is heading for. -/
theorem spring_pos (h : Rates P α β) (q : Tip) (y : ℂ) (t s : ℝ) (hs : s = t - q.time) :
    (spring P q (y, t)).pos = (1 - s * α * (1 - s * P.drag) - s ^ 2 * (α * β)) • q.pos + (s * α * (1 - s * P.drag)) • heading α q +
      (s ^ 2 * (α * β)) • y := by
  simp only [spring, ← hs]
  rw [vel_heading h q, ← h.prod]
  simp only [Complex.real_smul]
  push_cast
  ring

theorem spring_heading (h : Rates P α β) (q : Tip) (y : ℂ) (t s : ℝ) (hs : s = t - q.time) :
    heading α (spring P q (y, t)) = (s ^ 2 * α ^ 2) • q.pos + ((1 + s * α) * (1 - s * P.drag)) • heading α q +
      (s * β * (1 + s * α)) • y := by
  have hα : (α : ℂ) ≠ 0 := by exact_mod_cast h.pos.ne'
  have e : heading α (spring P q (y, t)) = (spring P q (y, t)).pos + α⁻¹ • (spring P q (y, t)).vel := rfl
  rw [e]
  simp only [spring, ← hs]
  rw [vel_heading h q, ← h.prod, ← h.sum]
  simp only [Complex.real_smul]
  push_cast
  field_simp
  ring

theorem short (hd : P.Damped) {s : ℝ} (h0 : 0 ≤ s) (h : s * P.rate ≤ 1) : s * P.drag ≤ 1 :=
  (mul_le_mul_of_nonneg_left hd.rate h0).trans h

theorem weights (hr : Rates P α β) {s : ℝ} (h0 : 0 ≤ s) (h1 : s * P.drag ≤ 1) :
    0 ≤ 1 - s * P.drag ∧ 0 ≤ s * α ∧ s * α ≤ 1 ∧ 0 ≤ s * β ∧ s * β ≤ 1 ∧ s * α + s * β ≤ 1 := by
  have := hr.pos; have := hr.pos'; have := hr.sum
  have a1 : 0 ≤ s * α := by positivity
  have a2 : 0 ≤ s * β := by positivity
  have : s * α + s * β = s * P.drag := by rw [← mul_add, hr.sum]
  refine ⟨?_, a1, ?_, a2, ?_, ?_⟩ <;> linarith

/-- The tip and the point it is heading for stay in every convex set with the anchors. -/
theorem kept_hull (hd : P.Damped) (hr : Rates P α β) {S : Set ℂ} (hS : Convex ℝ S) :
    Kept P S fun q => q.pos ∈ S ∧ heading α q ∈ S := by
  rintro q y t ⟨h1, h2⟩ hy hs hs'
  have h0 : 0 ≤ t - q.time := sub_nonneg.2 hs
  obtain ⟨w0, w1, w2, w3, w4, w5⟩ := weights hr h0 (short hd h0 hs')
  have e1 : (t - q.time) * P.drag = (t - q.time) * α + (t - q.time) * β := by rw [← mul_add, hr.sum]
  constructor
  · rw [spring_pos hr q y t _ rfl]
    refine comb3_mem hS h1 h2 hy ?_ (mul_nonneg w1 w0) ?_ (by ring)
    · have : (t - q.time) ^ 2 * (α * β) = ((t - q.time) * α) * ((t - q.time) * β) := by ring
      rw [this]
      nlinarith
    · have := hr.pos; have := hr.pos'; positivity
  · rw [spring_heading hr q y t _ rfl]
    have := hr.pos
    have := hr.pos'
    refine comb3_mem hS h1 h2 hy (by positivity) (mul_nonneg (by positivity) w0) (by positivity) ?_
    rw [← hr.sum]; ring

/-! ### going on in a direction -/

theorem anchorAt_mono {S : ℝ} {a : ℂ × ℝ} {l : List (ℂ × ℝ)} (h : Slow S a l) {ℓ : ℂ →ₗ[ℝ] ℝ}
    (hℓ : (a :: l).IsChain fun b c => ℓ b.1 ≤ ℓ c.1) {s t : ℝ} (hs : a.2 ≤ s) (hst : s ≤ t) :
    ℓ (anchorAt a l s) ≤ ℓ (anchorAt a l t) := by
  induction l generalizing a s with
  | nil => exact le_rfl
  | cons b l ih =>
    rw [List.isChain_cons_cons] at hℓ
    have hway : ∀ {s t : ℝ}, a.2 ≤ s → s ≤ t → t ≤ b.2 → ℓ (anchorAt a (b :: l) s) ≤ ℓ (anchorAt a (b :: l) t) := by
      intro s t hs hst ht
      rw [anchorAt_way h ht, anchorAt_way h (hst.trans ht), map_add, map_add, map_smul, map_smul, map_sub, smul_eq_mul, smul_eq_mul]
      have h1 : 0 ≤ ℓ b.1 - ℓ a.1 := sub_nonneg.2 hℓ.1
      have h2 : (s - a.2) / (b.2 - a.2) ≤ (t - a.2) / (b.2 - a.2) := div_le_div_of_nonneg_right (by linarith) (sub_nonneg.2 h.head.1)
      nlinarith
    rcases le_total t b.2 with ht | ht
    · exact hway hs hst ht
    · rcases le_total b.2 s with hb | hb
      · rw [anchorAt_late ht, anchorAt_late hb]
        exact ih h.tail hℓ.2 hb hst
      · have h1 := hway hs hb le_rfl
        have h2 := ih h.tail hℓ.2 le_rfl ht
        rw [← anchorAt_late (a := a) ht, ← anchorAt_late (a := a) (l := l) le_rfl] at h2
        exact h1.trans h2

/-- The tip does not go back if the anchor does not. -/
theorem drawn_rise (hd : P.Damped) (hr : Rates P α β) {S : ℝ} {a : ℂ × ℝ} {l : List (ℂ × ℝ)} (h : Slow S a l) {ℓ : ℂ →ₗ[ℝ] ℝ}
    (hℓ : (a :: l).IsChain fun b c => ℓ b.1 ≤ ℓ c.1) :
    Drawn P {i | i.1 = anchorAt a l i.2} fun q => a.2 ≤ q.time ∧ 0 ≤ ℓ q.vel ∧ ℓ (heading α q) ≤ ℓ (anchorAt a l q.time) := by
  rintro q ⟨y, t⟩ ⟨h0, h1, h2⟩ (hy : y = anchorAt a l t) hs hs'
  change q.time ≤ t at hs
  change (t - q.time) * P.rate ≤ 1 at hs'
  have hle := anchorAt_mono h hℓ h0 hs
  rw [← hy] at hle
  have hs0 : 0 ≤ t - q.time := sub_nonneg.2 hs
  obtain ⟨w0, w1, w2, w3, w4, w5⟩ := weights hr hs0 (short hd hs0 hs')
  have hα := hr.pos
  have hβ := hr.pos'
  have hpos : ℓ q.pos ≤ ℓ (heading α q) := by
    rw [heading, map_add, map_smul, smul_eq_mul]
    have := mul_nonneg (inv_pos.2 hα).le h1
    linarith
  refine ⟨h0.trans hs, ?_, ?_⟩
  · have e : (spring P q (y, t)).vel = (1 - (t - q.time) * P.drag) • q.vel + ((t - q.time) * P.mass⁻¹) • (y - q.pos) := by
      simp only [spring, Complex.real_smul]
      push_cast
      ring
    rw [e, map_add, map_smul, map_smul, map_sub, smul_eq_mul, smul_eq_mul, ← hr.prod]
    have h3 : 0 ≤ ℓ y - ℓ q.pos := by linarith
    have h4 := mul_nonneg w0 h1
    have h5 : 0 ≤ (t - q.time) * (α * β) * (ℓ y - ℓ q.pos) := by positivity
    linarith
  · change ℓ (heading α (spring P q (y, t))) ≤ ℓ (anchorAt a l t)
    rw [← hy, spring_heading hr q y t _ rfl, map_add, map_add, map_smul, map_smul, map_smul, smul_eq_mul, smul_eq_mul, smul_eq_mul]
    have k1 : 0 ≤ (t - q.time) ^ 2 * α ^ 2 := by positivity
    have k2 : 0 ≤ (1 + (t - q.time) * α) * (1 - (t - q.time) * P.drag) := mul_nonneg (by linarith) w0
    have k3 : (t - q.time) ^ 2 * α ^ 2 + (1 + (t - q.time) * α) * (1 - (t - q.time) * P.drag) + (t - q.time) * β * (1 + (t - q.time) * α) = 1 := by
      rw [← hr.sum]; ring
    have k4 := mul_le_mul_of_nonneg_left (hpos.trans (h2.trans hle)) k1
    have k5 := mul_le_mul_of_nonneg_left (h2.trans hle) k2
    have k6 : ((t - q.time) ^ 2 * α ^ 2 + (1 + (t - q.time) * α) * (1 - (t - q.time) * P.drag) +
      (t - q.time) * β * (1 + (t - q.time) * α)) * ℓ y = ℓ y := by rw [k3, one_mul]
    linarith

/-! ### speed and lag -/

/-- The tip is hardly faster than the anchor ever was, and not far behind. -/
def Keeping (P : Params) (α β S : ℝ) (y : ℂ) (q : Tip) : Prop :=
  ‖q.vel‖ ≤ S * (1 + β / P.rate) ∧ β * ‖y - heading α q‖ ≤ S

theorem drawn_keeping (hv : P.Valid) (hd : P.Damped) (hr : Rates P α β) {S : ℝ} (hS : 0 ≤ S) {a : ℂ × ℝ} {l : List (ℂ × ℝ)}
    (h : Slow S a l) :
    Drawn P {i | i.1 = anchorAt a l i.2} fun q => a.2 ≤ q.time ∧ Keeping P α β S (anchorAt a l q.time) q := by
  rintro q ⟨y, t⟩ ⟨h0, h1, h2⟩ (hy : y = anchorAt a l t) hs hs'
  change q.time ≤ t at hs
  change (t - q.time) * P.rate ≤ 1 at hs'
  have hle := anchorAt_lipschitz h hS h0 hs
  rw [← hy] at hle
  have hs0 : 0 ≤ t - q.time := sub_nonneg.2 hs
  obtain ⟨w0, w1, w2, w3, w4, w5⟩ := weights hr hs0 (short hd hs0 hs')
  have hα := hr.pos
  have hβ := hr.pos'
  have hrate := hv.rate
  set s := t - q.time with hsdef
  set z := anchorAt a l q.time with hz
  have hsum : s * P.drag = s * α + s * β := by rw [← mul_add, hr.sum]
  have hHβ : s * β ≤ β / P.rate := by rw [le_div_iff₀ hrate]; nlinarith
  have hHα : α / P.rate ≤ 1 := by
    rw [div_le_one hrate]
    have := hd.rate
    have := hr.sum
    linarith
  refine ⟨h0.trans hs, ?_, ?_⟩
  · have e : (spring P q (y, t)).vel = (1 - s * α) • q.vel + (s * α) • (β • (z - heading α q)) + (s * α * β) • (y - z) := by
      simp only [spring, ← hsdef]
      rw [vel_heading hr q, ← hr.prod, ← hr.sum]
      simp only [Complex.real_smul]
      push_cast
      ring
    rw [e]
    have n1 : ‖(1 - s * α) • q.vel‖ ≤ (1 - s * α) * (S * (1 + β / P.rate)) := by
      rw [norm_smul, Real.norm_eq_abs, abs_of_nonneg (by linarith)]
      exact mul_le_mul_of_nonneg_left h1 (by linarith)
    have n2 : ‖(s * α) • (β • (z - heading α q))‖ ≤ (s * α) * S := by
      rw [norm_smul, norm_smul, Real.norm_eq_abs, Real.norm_eq_abs, abs_of_nonneg w1, abs_of_pos hβ]
      exact mul_le_mul_of_nonneg_left h2 w1
    have n3 : ‖(s * α * β) • (y - z)‖ ≤ (s * α * β) * (S * s) := by
      have : 0 ≤ s * α * β := by positivity
      rw [norm_smul, Real.norm_eq_abs, abs_of_nonneg this]
      exact mul_le_mul_of_nonneg_left hle this
    refine (norm_add₃_le.trans (add_le_add (add_le_add n1 n2) n3)).trans ?_
    have := mul_le_mul_of_nonneg_left hHβ (mul_nonneg w1 hS)
    nlinarith
  · change β * ‖anchorAt a l t - heading α (spring P q (y, t))‖ ≤ S
    rw [← hy]
    have e : y - heading α (spring P q (y, t)) =
        (1 - s * β - s ^ 2 * (α * β)) • ((z - heading α q) + (y - z)) + (s ^ 2 * α) • q.vel := by
      rw [spring_heading hr q y t s hsdef, ← hr.sum]
      conv_rhs => rw [vel_heading hr q]
      simp only [Complex.real_smul]
      push_cast
      ring
    rw [e]
    have c0 : 0 ≤ 1 - s * β - s ^ 2 * (α * β) := by
      have : s ^ 2 * (α * β) = (s * α) * (s * β) := by ring
      rw [this]
      nlinarith
    have n1 : ‖(1 - s * β - s ^ 2 * (α * β)) • ((z - heading α q) + (y - z))‖ ≤
        (1 - s * β - s ^ 2 * (α * β)) * (‖z - heading α q‖ + S * s) := by
      rw [norm_smul, Real.norm_eq_abs, abs_of_nonneg c0]
      exact mul_le_mul_of_nonneg_left ((norm_add_le _ _).trans (by linarith)) c0
    have n2 : ‖(s ^ 2 * α) • q.vel‖ ≤ (s ^ 2 * α) * (S * (1 + β / P.rate)) := by
      have : 0 ≤ s ^ 2 * α := by positivity
      rw [norm_smul, Real.norm_eq_abs, abs_of_nonneg this]
      exact mul_le_mul_of_nonneg_left h1 this
    have n3 := mul_le_mul_of_nonneg_left ((norm_add_le _ _).trans (add_le_add n1 n2)) hβ.le
    refine n3.trans ?_
    have k1 : (1 - s * β - s ^ 2 * (α * β)) * (β * ‖z - heading α q‖) ≤ (1 - s * β - s ^ 2 * (α * β)) * S :=
      mul_le_mul_of_nonneg_left h2 c0
    -- what remains is `s² α β (β / rate) ≤ s² β² + s³ α β²`
    have k2 : s ^ 2 * β ^ 2 * (α / P.rate) ≤ s ^ 2 * β ^ 2 * 1 := mul_le_mul_of_nonneg_left hHα (by positivity)
    have k3 : 0 ≤ s ^ 3 * α * β ^ 2 := by positivity
    have k4 : β * ((1 - s * β - s ^ 2 * (α * β)) * (‖z - heading α q‖ + S * s) + s ^ 2 * α * (S * (1 + β / P.rate))) =
        (1 - s * β - s ^ 2 * (α * β)) * (β * ‖z - heading α q‖) + S * ((1 - s * β - s ^ 2 * (α * β)) * (s * β) + s ^ 2 * (α * β) +
          s ^ 2 * β ^ 2 * (α / P.rate)) := by ring
    rw [k4]
    have k5 : S * ((1 - s * β - s ^ 2 * (α * β)) * (s * β) + s ^ 2 * (α * β) + s ^ 2 * β ^ 2 * (α / P.rate)) ≤
        S * (s * β + s ^ 2 * (α * β)) := by
      refine mul_le_mul_of_nonneg_left ?_ hS
      nlinarith
    have k6 : (1 - s * β - s ^ 2 * (α * β)) * S + S * (s * β + s ^ 2 * (α * β)) = S := by ring
    linarith

theorem keeping_speed (hv : P.Valid) (hr : Rates P α β) {S : ℝ} (hS : 0 ≤ S) {y : ℂ} {q : Tip}
    (h : Keeping P α β S y q) : ‖q.vel‖ ≤ S * (1 + P.drag / (2 * P.rate)) := by
  have hrate := hv.rate
  have : β / P.rate ≤ P.drag / (2 * P.rate) := by
    rw [div_le_div_iff₀ hrate (by positivity)]
    have := hr.le
    have := hr.sum
    nlinarith
  have := mul_le_mul_of_nonneg_left this hS
  linarith [h.1]

theorem keeping_dist (hv : P.Valid) (hr : Rates P α β) {S : ℝ} (hS : 0 ≤ S) {y : ℂ} {q : Tip} (h : Keeping P α β S y q) :
    ‖y - q.pos‖ ≤ S * (P.mass * P.drag + 1 / P.rate) := by
  have hα := hr.pos
  have hβ := hr.pos'
  have hrate := hv.rate
  have e : y - q.pos = (y - heading α q) + α⁻¹ • q.vel := by rw [heading]; ring
  rw [e]
  have n1 : ‖y - heading α q‖ ≤ S / β := by rw [le_div_iff₀ hβ]; linarith [h.2]
  have n2 : ‖α⁻¹ • q.vel‖ ≤ α⁻¹ * (S * (1 + β / P.rate)) := by
    rw [norm_smul, Real.norm_eq_abs, abs_of_pos (inv_pos.2 hα)]
    exact mul_le_mul_of_nonneg_left h.1 (inv_pos.2 hα).le
  refine (norm_add_le _ _).trans ((add_le_add n1 n2).trans ?_)
  have hm : P.mass = (α * β)⁻¹ := by rw [hr.prod, inv_inv]
  have e1 : S * (P.mass * P.drag + 1 / P.rate) - (S / β + α⁻¹ * (S * (1 + β / P.rate))) = S * ((1 - β / α) / P.rate) := by
    rw [hm, ← hr.sum]
    field_simp
    ring
  have : 0 ≤ S * ((1 - β / α) / P.rate) := by
    have : β / α ≤ 1 := (div_le_one hα).2 hr.le
    have : 0 ≤ 1 - β / α := by linarith
    positivity
  linarith

/-! ### steps in a row -/

/-- The velocity of a tip state is that of the way to it. -/
def Stepped (a b : Tip) : Prop := b.pos = a.pos + (b.time - a.time) • b.vel

theorem stepped_spring (q : Tip) (i : ℂ × ℝ) : Stepped q (spring P q i) := rfl

theorem stepped_follow (q : Tip) (l : List (ℂ × ℝ)) : (q :: follow P q l).IsChain Stepped := by
  induction l generalizing q with
  | nil => simp [follow]
  | cons i l ih => exact List.isChain_cons_cons.2 ⟨stepped_spring q i, ih _⟩

theorem stepped_settle (w : ℂ) (k : ℕ) (dt : ℝ) (q : Tip) :
    (q :: (settle P w k dt q).2).IsChain Stepped ∧ ((settle P w k dt q).2 = [] → Stepped q (settle P w k dt q).1) := by
  induction k generalizing dt q with
  | zero => exact ⟨by simp [settle], fun _ => by simp [settle, Stepped]⟩
  | succ k ih =>
    simp only [settle]
    split
    · exact ⟨by simp, fun _ => stepped_spring q _⟩
    · split
      · exact ih _ _
      · split
        · exact ⟨List.isChain_cons_cons.2 ⟨stepped_spring q _, by simp⟩, by simp⟩
        · exact ⟨List.isChain_cons_cons.2 ⟨stepped_spring q _, (ih _ _).1⟩, by simp⟩

theorem stepped_answer {s : State} {i : Touch} {tips : List Tip} (h : (advance P s i).2 = some tips) :
    (s.tip :: tips).IsChain Stepped := by
  cases i with
  | move x t =>
    obtain ⟨n, rfl, hmax, rfl, _⟩ := move_answer h
    exact stepped_follow _ _
  | up x t =>
    obtain ⟨n, rfl, hmax, path, hp, ending, cand, he, htips⟩ := up_answer h
    have hpath : (s.tip :: path).IsChain Stepped := by rw [hp]; exact stepped_follow _ _
    obtain ⟨h1, h2⟩ := stepped_settle (P := P) x P.maxIter (1 / P.rate) (path.getLastD s.tip)
    rw [← he] at h1 h2
    rw [htips]
    split
    · rename_i h0
      obtain ⟨rfl, rfl⟩ := List.append_eq_nil_iff.1 h0
      exact List.isChain_cons_cons.2 ⟨h2 rfl, List.isChain_singleton _⟩
    · exact chain_append hpath h1

theorem stepped_told (pos : ℂ) (time : ℝ) (is : List Touch) (hm : ∀ l i, is = l ++ [i] → ∀ j ∈ l, j.IsMove) :
    (told P pos time is).IsChain Stepped := by
  induction is using List.reverseRecOn with
  | nil => simp [told, stroke, answers]
  | append_singleton is i ih =>
    have hmv := hm is i rfl
    have ih := ih fun l j hj k hk => hmv k (by rw [hj]; simp [hk])
    rw [told_append]
    cases ha : (advance P (after P (start pos time) is) i).2 with
    | none => simpa using ih
    | some tips =>
      have := stepped_answer ha
      rw [Option.getD_some, List.isChain_append]
      refine ⟨ih, this.tail, fun x hx y hy => ?_⟩
      rw [told_last pos time is hmv, Option.mem_some_iff] at hx
      cases tips with
      | nil => simp at hy
      | cons z tips =>
        simp only [List.head?_cons, Option.mem_some_iff] at hy
        rw [← hx, ← hy]
        exact (List.isChain_cons_cons.1 this).1

end Step
end
end Ink.Ref

namespace Ink

/-- A recursion of second order with complex roots changes its sign. -/
theorem recursion_neg {y : ℕ → ℝ} {τ δ : ℝ} (hy : ∀ k, y (k + 2) = τ * y (k + 1) - δ * y k) (h0 : 0 < y 0) (h : τ ^ 2 < 4 * δ) :
    ∃ n, y n < 0 := by
  by_contra hne
  push Not at hne
  have hδ : 0 < δ := by nlinarith [sq_nonneg τ]
  have hpos : ∀ n, 0 < y n := by
    intro n
    induction n with
    | zero => exact h0
    | succ n ih =>
      refine lt_of_le_of_ne (hne _) fun hz => ?_
      have := hne (n + 2)
      rw [hy, ← hz, mul_zero, zero_sub] at this
      have := mul_pos hδ ih
      linarith
  set c := (4 * δ - τ ^ 2) / 4 with hc
  have hc0 : 0 < c := by rw [hc]; linarith
  -- the ratio of two terms in a row decreases
  set r : ℕ → ℝ := fun n => y (n + 1) / y n with hr
  have hrpos : ∀ n, 0 < r n := fun n => div_pos (hpos _) (hpos _)
  have hstep : ∀ n, r (n + 1) = τ - δ / r n := by
    intro n
    simp only [hr]
    rw [hy]
    have := (hpos n).ne'
    have := (hpos (n + 1)).ne'
    field_simp
  have hdec : ∀ n, r n * (r n - r (n + 1)) ≥ c := by
    intro n
    rw [hstep]
    have := (hrpos n).ne'
    have e : r n * (r n - (τ - δ / r n)) = (r n - τ / 2) ^ 2 + c := by rw [hc]; field_simp; ring
    rw [e]
    nlinarith [sq_nonneg (r n - τ / 2)]
  have hanti : ∀ n, r n ≤ r 0 - n * (c / r 0) := by
    intro n
    induction n with
    | zero => simp
    | succ n ih =>
      have h1 := hdec n
      have h2 := hrpos n
      have h3 : r n ≤ r 0 := by
        have : 0 ≤ (n : ℝ) * (c / r 0) := mul_nonneg (Nat.cast_nonneg _) (div_pos hc0 (hrpos 0)).le
        linarith
      have h4 : 0 ≤ r n - r (n + 1) := by
        by_contra hneg
        push Not at hneg
        nlinarith
      have h5 : c / r 0 ≤ r n - r (n + 1) := by
        rw [div_le_iff₀ (hrpos 0)]
        nlinarith
      push_cast
      linarith
  obtain ⟨n, hn⟩ := exists_nat_gt (r 0 / (c / r 0))
  have h1 := hanti n
  have h2 := hrpos n
  rw [div_lt_iff₀ (div_pos hc0 (hrpos 0))] at hn
  linarith

/-- With little drag and short steps the spring swings past its anchor. -/
theorem swing_past {M d h : ℝ} (hM : 0 < M) (hh : 0 < h) (hlt : (h / M + d) ^ 2 < 4 / M) : ∃ n, (swing M d h n).1 < 0 := by
  refine recursion_neg (fun k => swing_two k) (by simp [swing]) ?_
  have e : (2 - h * d - h ^ 2 / M) ^ 2 - 4 * (1 - h * d) = h ^ 2 * ((h / M + d) ^ 2 - 4 / M) := by field_simp; ring
  have : h ^ 2 * ((h / M + d) ^ 2 - 4 / M) < 0 := mul_neg_of_pos_of_neg (by positivity) (by linarith)
  linarith

/-- There are such steps of any small size. -/
theorem swing_short {M d r : ℝ} (hM : 0 < M) (hd : 0 < d) (hr : 0 < r) (h : M * d ^ 2 < 4) :
    ∃ h₀, 0 < h₀ ∧ ∀ h, 0 < h → h ≤ h₀ → h * r ≤ 1 ∧ (h / M + d) ^ 2 < 4 / M := by
  have hs : d < Real.sqrt (4 / M) := by
    rw [Real.lt_sqrt hd.le, lt_div_iff₀ hM]; linarith
  set s := Real.sqrt (4 / M) with hsd
  have hss : s ^ 2 = 4 / M := Real.sq_sqrt (by positivity)
  refine ⟨min (1 / r) (M * (s - d) / 2), ?_, ?_⟩
  · have : 0 < s - d := by linarith
    exact lt_min (by positivity) (by positivity)
  · intro h h0 hle
    refine ⟨?_, ?_⟩
    · have := hle.trans (min_le_left _ _)
      rwa [le_div_iff₀ hr] at this
    · have h1 := hle.trans (min_le_right _ _)
      have h2 : h / M ≤ (s - d) / 2 := by rw [div_le_iff₀ hM]; linarith
      have h3 : 0 < h / M := by positivity
      rw [← hss]
      apply pow_lt_pow_left₀ <;> linarith
end Ink
