import Verif.Lemmas.Ref
/-!
# An input that is where the anchor would have been anyway
-/
namespace Ink.Ref
noncomputable section
open Classical

variable {P : Params}

/-- The states differ only in the samples for smoothing. -/
structure SameTip (s s' : State) : Prop where
  tip : s.tip = s'.tip
  anchor : s.anchor = s'.anchor

theorem SameTip.advance (hw : P.wobble = none) {s s' : State} (h : SameTip s s') (i : Touch) :
    SameTip (advance P s i).1 (advance P s' i).1 ∧ (advance P s i).2 = (advance P s' i).2 := by
  obtain ⟨h1, h2⟩ := h
  cases i with
  | move x t =>
    have hs : ∀ s : State, smooth P s x t = (s.window, x) := fun s => by simp [smooth, hw]
    simp only [Ref.advance, move, hs, h1, h2]
    split
    · exact ⟨⟨rfl, rfl⟩, rfl⟩
    · exact ⟨⟨rfl, rfl⟩, rfl⟩
  | up x t =>
    refine ⟨⟨h1, h2⟩, ?_⟩
    simp only [Ref.advance, up, h1, h2]

theorem SameTip.answers (hw : P.wobble = none) {s s' : State} (h : SameTip s s') (l : List Touch) :
    Ref.answers P s l = Ref.answers P s' l := by
  induction l generalizing s s' with
  | nil => rfl
  | cons i l ih =>
    obtain ⟨h1, h2⟩ := h.advance hw i
    rw [Ref.answers, Ref.answers, h2, ih h1]

theorem lerp_part (a b : ℂ) {c d e : ℝ} (h : c + d * (1 - c) = e) : lerp (lerp a b c) b d = lerp a b e := by
  rw [← h]; simp only [lerp, Complex.real_smul]; push_cast; ring

theorem lerp_part_real (a b : ℝ) {c d e : ℝ} (h : c + d * (1 - c) = e) : lerp (lerp a b c) b d = lerp a b e := by
  rw [← h]; simp only [lerp, smul_eq_mul]; ring

theorem lerp_scale (a b : ℂ) {c d e : ℝ} (h : d * c = e) : lerp a (lerp a b c) d = lerp a b e := by
  rw [← h]; simp only [lerp, Complex.real_smul]; push_cast; ring

theorem lerp_scale_real (a b : ℝ) {c d e : ℝ} (h : d * c = e) : lerp a (lerp a b c) d = lerp a b e := by
  rw [← h]; simp only [lerp, smul_eq_mul]; ring

/-- The points on the way to `b` are those on the way to a point in between, and from there on. -/
theorem upsample_split (a b : ℂ × ℝ) {k l : ℕ} (hk : 0 < k) (hl : 0 < l) {c : ℂ × ℝ}
    (hc : c = (lerp a.1 b.1 ((k : ℝ) / (k + l : ℕ)), lerp a.2 b.2 ((k : ℝ) / (k + l : ℕ)))) :
    upsample a b (k + l) = upsample a c k ++ upsample c b l := by
  have hk' : (0 : ℝ) < k := by exact_mod_cast hk
  have hl' : (0 : ℝ) < l := by exact_mod_cast hl
  have hn' : (0 : ℝ) < (k : ℝ) + l := by positivity
  subst hc
  unfold upsample
  rw [List.range_add, List.map_append, List.map_map]
  congr 1
  · apply List.map_congr_left
    intro j _
    have e : ((j : ℝ) + 1) / k * ((k : ℝ) / (k + l : ℕ)) = ((j : ℝ) + 1) / (k + l : ℕ) := by push_cast; field_simp
    dsimp only
    rw [lerp_scale _ _ e, lerp_scale_real _ _ e]
  · apply List.map_congr_left
    intro j _
    have e : (k : ℝ) / (k + l : ℕ) + ((j : ℝ) + 1) / l * (1 - (k : ℝ) / (k + l : ℕ)) = (((k + j : ℕ) : ℝ) + 1) / (k + l : ℕ) := by
      push_cast; field_simp; ring
    simp only [Function.comp_apply]
    rw [lerp_part _ _ e, lerp_part_real _ _ e]

/-- The number of steps for a part of the way. -/
theorem steps_part (ha : P.maxAngle = none) {dt : ℝ} {k l : ℕ} (hk : 0 < k) (hn : ⌈dt * P.rate⌉ = ((k + l : ℕ) : ℤ))
    (hmax : ((k + l : ℕ) : ℤ) ≤ 2147483647) (q : Tip) (x : ℂ) : steps P q x ((k : ℝ) / (k + l : ℕ) * dt) = k := by
  have hk' : (1 : ℝ) ≤ k := by exact_mod_cast hk
  have hl' : (0 : ℝ) ≤ l := Nat.cast_nonneg l
  obtain ⟨h1, h2⟩ := Int.ceil_eq_iff.1 hn
  push_cast at h1 h2
  have hc : ⌈(k : ℝ) / (k + l : ℕ) * dt * P.rate⌉ = (k : ℤ) := by
    rw [Int.ceil_eq_iff]
    push_cast
    have e : (k : ℝ) / (k + l) * dt * P.rate = k * (dt * P.rate) / (k + l) := by field_simp
    rw [e]
    constructor
    · rw [lt_div_iff₀ (by positivity)]
      nlinarith
    · rw [div_le_iff₀ (by positivity)]
      nlinarith
  unfold steps
  rw [ha, hc]
  dsimp only
  omega

theorem getLastD_append (l l' : List Tip) (q : Tip) : (l ++ l').getLastD q = l'.getLastD (l.getLastD q) := by
  induction l generalizing q with
  | nil => rfl
  | cons a l ih => rw [List.cons_append, List.getLastD_cons, List.getLastD_cons, ih]

/-- An input that is where the anchor would have been anyway. -/
theorem advance_part (hw : P.wobble = none) (ha : P.maxAngle = none) {s : State} {i : Touch} {k l : ℕ} (hk : 0 < k) (hl : 0 < l)
    {y : ℂ} {t : ℝ} (hi : i = .move y t ∨ i = .up y t) (hn : ⌈(t - s.anchor.2) * P.rate⌉ = ((k + l : ℕ) : ℤ))
    (hmax : ((k + l : ℕ) : ℤ) ≤ 2147483647) {tips : List Tip} (hans : (advance P s i).2 = some tips) {c : ℂ × ℝ}
    (hc : c = (lerp s.anchor.1 y ((k : ℝ) / (k + l : ℕ)), lerp s.anchor.2 t ((k : ℝ) / (k + l : ℕ)))) :
    ∃ s' tips₁ tips₂, move P s c.1 c.2 = (s', some tips₁) ∧ (advance P s' i).2 = some tips₂ ∧ tips = tips₁ ++ tips₂ ∧
      (i = .move y t → SameTip (advance P s i).1 (advance P s' i).1) := by
  have hs : ∀ (s : State) (x : ℂ) (t : ℝ), smooth P s x t = (s.window, x) := fun s x t => by simp [smooth, hw]
  have hk0 : (0 : ℝ) < k := by exact_mod_cast hk
  have hl0 : (0 : ℝ) < l := by exact_mod_cast hl
  have hN : steps P s.tip y (t - s.anchor.2) = ((k + l : ℕ) : ℤ) := by
    unfold steps
    rw [ha, hn]
    dsimp only
    omega
  have hmaxOut : ((k + l : ℕ) : ℤ) ≤ P.maxOut := by
    by_contra hlt
    rcases hi with rfl | rfl
    · simp only [advance, move, hs, hN, if_neg hlt] at hans
      cases hans
    · simp only [advance, up, hN, if_neg hlt] at hans
      cases hans
  have hc2 : c.2 - s.anchor.2 = (k : ℝ) / (k + l : ℕ) * (t - s.anchor.2) := by
    rw [hc]; simp only [lerp, smul_eq_mul]; ring
  have hK : steps P s.tip c.1 (c.2 - s.anchor.2) = k := by rw [hc2]; exact steps_part ha hk hn hmax _ _
  have hmove : move P s c.1 c.2 = (⟨(follow P s.tip (upsample s.anchor c k)).getLastD s.tip, s.window, c⟩,
      some (follow P s.tip (upsample s.anchor c k))) := by
    simp only [move, hs, hK, Int.toNat_natCast]
    rw [if_pos (by omega)]
  have hL : ∀ q : Tip, steps P q y (t - c.2) = l := by
    intro q
    have e : t - c.2 = (l : ℝ) / (l + k : ℕ) * (t - s.anchor.2) := by
      rw [hc]; simp only [lerp, smul_eq_mul]; push_cast; field_simp; ring
    rw [e]
    exact steps_part ha hl (by rw [hn]; push_cast; ring) (by rw [add_comm]; exact hmax) _ _
  have hsplit := upsample_split s.anchor (y, t) hk hl hc
  rw [hmove]
  rcases hi with rfl | rfl
  · simp only [advance, move, hs, hN, if_pos hmaxOut, Int.toNat_natCast, Option.some.injEq] at hans
    refine ⟨_, _, follow P ((follow P s.tip (upsample s.anchor c k)).getLastD s.tip) (upsample c (y, t) l), rfl, ?_, ?_, fun _ => ?_⟩
    · simp only [advance, move, hs, hL, Int.toNat_natCast]
      rw [if_pos (by omega)]
    · rw [← hans, hsplit, follow_append]
    · simp only [advance, move, hs, hL, Int.toNat_natCast, hN, if_pos hmaxOut]
      rw [if_pos (by omega), hsplit, follow_append]
      exact ⟨getLastD_append .., rfl⟩
  · simp only [advance, up, hN, if_pos hmaxOut, Int.toNat_natCast, Option.some.injEq] at hans
    refine ⟨_, _, tips.drop (follow P s.tip (upsample s.anchor c k)).length, rfl, ?_, ?_, fun h => by cases h⟩
    · simp only [advance, up, hL, Int.toNat_natCast]
      rw [if_pos (by omega), ← hans, hsplit, follow_append, getLastD_append]
      have hne : follow P ((follow P s.tip (upsample s.anchor c k)).getLastD s.tip) (upsample c (y, t) l) ≠ [] := by
        rw [← List.length_pos_iff, follow_length, upsample_length]; exact hl
      rw [if_neg (List.append_ne_nil_of_left_ne_nil hne _),
        if_neg (List.append_ne_nil_of_left_ne_nil (List.append_ne_nil_of_right_ne_nil _ hne) _), List.append_assoc, List.drop_left]
    · rw [← hans, hsplit, follow_append, getLastD_append]
      have hne : follow P ((follow P s.tip (upsample s.anchor c k)).getLastD s.tip) (upsample c (y, t) l) ≠ [] := by
        rw [← List.length_pos_iff, follow_length, upsample_length]; exact hl
      rw [if_neg (List.append_ne_nil_of_left_ne_nil (List.append_ne_nil_of_right_ne_nil _ hne) _), List.append_assoc, List.drop_left]

end
end Ink.Ref
