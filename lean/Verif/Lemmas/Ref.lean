import Verif.Spec.Ref
/-!
# About the reference model
-/
namespace Ink.Ref
noncomputable section
open Classical

theorem lerp_zero {E : Type} [AddCommGroup E] [Module ℝ E] (a b : E) : lerp a b 0 = a := by simp [lerp]
theorem lerp_one {E : Type} [AddCommGroup E] [Module ℝ E] (a b : E) : lerp a b 1 = b := by simp [lerp]

theorem clamp_mem (x : ℝ) : 0 ≤ clamp x ∧ clamp x ≤ 1 := by
  unfold clamp; exact ⟨le_max_left _ _, max_le zero_le_one (min_le_right _ _)⟩

variable {P : Params}

/-! ### the number of steps -/

theorem turn_nonneg (v w : ℂ) : 0 ≤ turn v w := by
  unfold turn; split
  · exact le_rfl
  · exact InnerProductGeometry.angle_nonneg _ _

theorem steps_nonneg (hv : P.Valid) (q : Tip) (x : ℂ) {dt : ℝ} (h : 0 ≤ dt) : 0 ≤ steps P q x dt := by
  unfold steps
  refine le_min (by norm_num) (le_max_of_le_left (Int.ceil_nonneg (mul_nonneg h hv.rate.le)))

theorem steps_pos (hv : P.Valid) (q : Tip) (x : ℂ) {dt : ℝ} (h : 0 < dt) : 0 < steps P q x dt := by
  unfold steps
  exact lt_min (by norm_num) (lt_max_of_lt_left (Int.ceil_pos.2 (mul_pos h hv.rate)))

/-- Unless the cap strikes, the steps are short enough. -/
theorem steps_rate (q : Tip) (x : ℂ) {dt : ℝ} (hc : steps P q x dt < 2147483647 ∨ dt * P.rate ≤ 2147483647) :
    dt * P.rate ≤ steps P q x dt := by
  have h : dt * P.rate ≤ (max ⌈dt * P.rate⌉ (match P.maxAngle with
    | none => 0
    | some a => ⌈turn q.vel (q.vel + velocityGain P q x dt) / a⌉) : ℤ) :=
    (Int.le_ceil _).trans (by exact_mod_cast le_max_left _ _)
  rw [steps] at hc ⊢
  generalize (max ⌈dt * P.rate⌉ (match P.maxAngle with
    | none => 0
    | some a => ⌈turn q.vel (q.vel + velocityGain P q x dt) / a⌉) : ℤ) = k at *
  rcases min_choice (2147483647 : ℤ) k with h' | h' <;> rw [h'] at hc ⊢
  · rcases hc with hc | hc
    · omega
    · exact_mod_cast hc
  · exact h

/-! ### times -/

theorem follow_append (q : Tip) (l l' : List (ℂ × ℝ)) :
    follow P q (l ++ l') = follow P q l ++ follow P ((follow P q l).getLastD q) l' := by
  induction l generalizing q with
  | nil => simp [follow]
  | cons i l ih => simp only [List.cons_append, follow, ih, List.getLastD_cons]

theorem follow_length (q : Tip) (l : List (ℂ × ℝ)) : (follow P q l).length = l.length := by
  induction l generalizing q with
  | nil => rfl
  | cons i l ih => simp [follow, ih]

theorem follow_time (q : Tip) (l : List (ℂ × ℝ)) : (follow P q l).map Tip.time = l.map Prod.snd := by
  induction l generalizing q with
  | nil => rfl
  | cons i l ih => simp [follow, ih, spring]

theorem upsample_length (a b : ℂ × ℝ) (n : ℕ) : (upsample a b n).length = n := by simp [upsample]

theorem upsample_time (a b : ℂ × ℝ) (n : ℕ) :
    (upsample a b n).map Prod.snd = (List.range n).map fun k : ℕ => lerp a.2 b.2 ((k + 1 : ℝ) / n) := by
  simp [upsample]

theorem getLastD_time (q : Tip) (l : List Tip) : (l.getLastD q).time = (l.map Tip.time).getLastD q.time := by
  rw [List.getLastD_eq_getLast?, List.getLastD_eq_getLast?, List.getLast?_map]
  cases l.getLast? <;> rfl

/-- Along a path the time ends at that of the input; with no step there was no time to pass. -/
theorem follow_last_time {q : Tip} {a b : ℂ × ℝ} {n : ℕ} (h : n = 0 → q.time = b.2) :
    ((follow P q (upsample a b n)).getLastD q).time = b.2 := by
  rw [getLastD_time, follow_time, upsample_time]
  cases n with
  | zero => simpa using h rfl
  | succ n =>
    rw [List.range_succ, List.map_append, List.map_singleton, List.getLastD_concat]
    have : ((n : ℝ) + 1) / ((n + 1 : ℕ) : ℝ) = 1 := by
      push_cast; exact div_self (by positivity)
    rw [this, lerp_one]

/-- The times of a path and the one before: equal steps. -/
theorem follow_chain {q : Tip} {a b : ℂ × ℝ} {n : ℕ} (hq : q.time = a.2) :
    (q :: follow P q (upsample a b n)).IsChain fun u v => v.time - u.time = (b.2 - a.2) / n := by
  rw [← List.isChain_map Tip.time (R := fun u v => v - u = (b.2 - a.2) / n), List.map_cons, follow_time, upsample_time]
  have : (q.time :: (List.range n).map fun k : ℕ => lerp a.2 b.2 ((k + 1 : ℝ) / n)) =
      (List.range (n + 1)).map fun k : ℕ => lerp a.2 b.2 ((k : ℝ) / n) := by
    rw [List.range_succ_eq_map, List.map_cons, List.map_map]
    congr 1
    · simp [lerp, hq]
    · apply List.map_congr_left; intro k _; simp
  rw [this, List.isChain_map]
  rw [List.isChain_iff_getElem]
  intro i hi
  simp only [List.getElem_range, lerp, smul_eq_mul]
  push_cast
  ring

theorem follow_times_mem {q : Tip} {a b : ℂ × ℝ} (hab : a.2 ≤ b.2) {n : ℕ} :
    ∀ u ∈ follow P q (upsample a b n), a.2 ≤ u.time ∧ u.time ≤ b.2 := by
  intro u hu
  have : u.time ∈ (follow P q (upsample a b n)).map Tip.time := List.mem_map_of_mem hu
  rw [follow_time, upsample_time] at this
  simp only [List.mem_map, List.mem_range] at this
  obtain ⟨k, hk, hu⟩ := this
  rw [← hu]
  have hn : (0 : ℝ) < n := by exact_mod_cast (by omega : 0 < n)
  have h0 : (0 : ℝ) ≤ (k + 1 : ℝ) / n := by positivity
  have h1 : (k + 1 : ℝ) / n ≤ 1 := by
    rw [div_le_one hn]; exact_mod_cast hk
  simp only [lerp, smul_eq_mul]
  constructor <;> nlinarith

/-! ### the state between inputs -/

/-- The inputs come in order. -/
def Ordered (P : Params) : State → List Touch → Prop
  | _, [] => True
  | s, i :: is => s.anchor.2 ≤ i.time ∧ Ordered P (advance P s i).1 is

theorem ordered_append (s : State) (is : List Touch) (i : Touch) :
    Ordered P s (is ++ [i]) ↔ Ordered P s is ∧ (after P s is).anchor.2 ≤ i.time := by
  induction is generalizing s with
  | nil => simp [Ordered, after]
  | cons j is ih => simp [Ordered, ih, after, and_assoc]

/-- Between inputs the tip has the time of the last input that was not too far. -/
def Synced (s : State) : Prop := s.tip.time = s.anchor.2

theorem synced_start (x : ℂ) (t : ℝ) : Synced (start x t) := rfl

theorem no_step (hv : P.Valid) {s : State} (hs : Synced s) {q : Tip} {x : ℂ} {t : ℝ} (hle : s.anchor.2 ≤ t)
    (hn : (steps P q x (t - s.anchor.2)).toNat = 0) : s.tip.time = t := by
  rcases hle.eq_or_lt with h | h
  · rw [hs, h]
  · have := steps_pos hv q x (sub_pos.2 h)
    omega

theorem synced_advance (hv : P.Valid) {s : State} (hs : Synced s) {i : Touch} (hle : s.anchor.2 ≤ i.time) :
    Synced (advance P s i).1 := by
  cases i with
  | up x t => exact hs
  | move x t =>
    simp only [advance, move]
    split
    · exact follow_last_time (no_step hv hs hle)
    · exact hs

theorem synced_after (hv : P.Valid) {s : State} (hs : Synced s) {is : List Touch} (h : Ordered P s is) :
    Synced (after P s is) := by
  induction is generalizing s with
  | nil => exact hs
  | cons i is ih => exact ih (synced_advance hv hs h.1) h.2

/-! ### the end of the stroke -/

theorem settle_length (w : ℂ) (k : ℕ) (dt : ℝ) (q : Tip) : (settle P w k dt q).2.length ≤ k := by
  induction k generalizing dt q with
  | zero => simp [settle]
  | succ k ih =>
    simp only [settle]
    split
    · simp
    · split
      · exact (ih _ _).trans (by omega)
      · split
        · simp
        · simpa using ih _ _

/-- Coming to the end each step goes closer to it, by no more than the whole way. -/
theorem closer_of_not_overshoots {w a b : ℂ} (hab : a ≠ b) (h : ¬ Overshoots w a b) : ‖w - b‖ < ‖w - a‖ := by
  by_contra hc
  rw [not_lt] at hc
  apply h
  rcases hc.lt_or_eq with hc | hc
  · exact ⟨a, left_mem_segment ℝ a b, hc⟩
  · refine ⟨midpoint ℝ a b, midpoint_mem_segment a b, ?_⟩
    rw [midpoint_eq_smul_add]
    have h1 : w - (⅟2 : ℝ) • (a + b) = (2⁻¹ : ℝ) • ((w - a) + (w - b)) := by
      simp only [invOf_eq_inv, smul_add, smul_sub]
      have : w = (2⁻¹ : ℝ) • w + (2⁻¹ : ℝ) • w := by rw [← add_smul]; norm_num
      nth_rewrite 1 [this]
      abel
    rw [h1, norm_smul]
    have hne : w - a ≠ w - b := by simpa using hab
    have h2 := parallelogram_law_with_norm ℝ (w - a) (w - b)
    have h3 : 0 < ‖(w - a) - (w - b)‖ := norm_pos_iff.2 (sub_ne_zero.2 hne)
    rw [hc] at h2
    norm_num
    nlinarith [norm_nonneg (w - b), norm_nonneg (w - a + (w - b))]

theorem settle_chain (hv : P.Valid) (w : ℂ) (k : ℕ) (dt : ℝ) (q : Tip) :
    (q :: (settle P w k dt q).2).IsChain (fun a b => ‖w - b.pos‖ < ‖w - a.pos‖ ∧ P.stop ≤ ‖b.pos - a.pos‖) ∧
    ∀ b ∈ (settle P w k dt q).2.dropLast, P.stop ≤ ‖w - b.pos‖ := by
  induction k generalizing dt q with
  | zero => simp [settle]
  | succ k ih =>
    simp only [settle]
    split
    · simp
    · rename_i h1
      split
      · exact ih _ _
      · rename_i h2
        rw [not_lt] at h1
        have h3 := closer_of_not_overshoots (fun hc => by
          rw [hc, sub_self, norm_zero] at h1; exact absurd hv.stop (not_lt.2 h1)) h2
        split
        · simp [h1, h3]
        · rename_i h4
          obtain ⟨i1, i2⟩ := ih dt (spring P q (w, q.time + dt))
          refine ⟨List.isChain_cons_cons.2 ⟨⟨h3, h1⟩, i1⟩, ?_⟩
          intro b hb
          cases hl : (settle P w k dt (spring P q (w, q.time + dt))).2 with
          | nil => simp [hl] at hb
          | cons c l =>
            rw [hl] at hb i2
            simp only [List.dropLast_cons_cons, List.mem_cons] at hb
            rcases hb with rfl | hb
            · exact not_lt.1 h4
            · exact i2 b hb

/-- The end-of-stroke states come later. -/
theorem settle_later (w : ℂ) (k : ℕ) {dt : ℝ} (hdt : 0 < dt) (q : Tip) : ∀ b ∈ (settle P w k dt q).2, q.time < b.time := by
  induction k generalizing dt q with
  | zero => simp [settle]
  | succ k ih =>
    have hc : q.time < (spring P q (w, q.time + dt)).time := by simp [spring, hdt]
    simp only [settle]
    split
    · simp
    · split
      · exact ih (half_pos hdt) q
      · split
        · intro b hb
          rw [List.mem_singleton] at hb
          rw [hb]; exact hc
        · intro b hb
          rcases List.mem_cons.1 hb with rfl | hb
          · exact hc
          · exact hc.trans (ih hdt _ b hb)

/-- If there is none, the last candidate was too close. -/
theorem settle_cand (hv : P.Valid) (w : ℂ) (k : ℕ) (dt : ℝ) (q : Tip) (h : (settle P w k dt q).2 = []) :
    ‖(settle P w k dt q).1.pos - q.pos‖ < P.stop := by
  induction k generalizing dt with
  | zero => simpa [settle] using hv.stop
  | succ k ih =>
    simp only [settle] at h ⊢
    split at h
    · rename_i h1; rw [if_pos h1]; exact h1
    · rename_i h1
      rw [if_neg h1]
      split at h
      · rename_i h2; rw [if_pos h2]; exact ih _ h
      · split at h <;> simp at h

/-- Each step of the ending takes at most `dt`. -/
theorem settle_times (w : ℂ) (k : ℕ) {dt : ℝ} (hdt : 0 ≤ dt) (q : Tip) :
    (q :: (settle P w k dt q).2).IsChain (fun a b => a.time ≤ b.time ∧ b.time - a.time ≤ dt) ∧
    (∀ b ∈ (settle P w k dt q).2, q.time ≤ b.time ∧ b.time ≤ q.time + k * dt) ∧
    (((settle P w k dt q).2 = [] → q.time ≤ (settle P w k dt q).1.time ∧ (settle P w k dt q).1.time ≤ q.time + dt ∧
      (settle P w k dt q).1.time ≤ q.time + k * dt)) := by
  induction k generalizing dt q with
  | zero => simp [settle, hdt]
  | succ k ih =>
    have ht : (spring P q (w, q.time + dt)).time = q.time + dt := rfl
    have hk : (0 : ℝ) ≤ k * dt := by positivity
    simp only [settle]
    split
    · simp [ht, hdt]; linarith
    · split
      · obtain ⟨h1, h2, h3⟩ := ih (half_pos_le hdt) q
        refine ⟨h1.imp fun a b h => ⟨h.1, h.2.trans (by linarith)⟩, fun b hb => ⟨(h2 b hb).1, (h2 b hb).2.trans ?_⟩, fun hn => ?_⟩
        · push_cast; nlinarith
        · obtain ⟨a, b, c⟩ := h3 hn
          exact ⟨a, by linarith, by push_cast; nlinarith⟩
      · split
        · simp only [List.isChain_cons_cons, List.isChain_singleton, and_true, List.mem_singleton, forall_eq, ht,
            List.cons_ne_nil, false_implies]
          push_cast
          refine ⟨?_, ?_⟩ <;> constructor <;> linarith
        · obtain ⟨h1, h2, _⟩ := ih hdt (spring P q (w, q.time + dt))
          refine ⟨List.isChain_cons_cons.2 ⟨by rw [ht]; constructor <;> linarith, h1⟩, ?_, by simp⟩
          intro b hb
          rw [ht] at h2
          rcases List.mem_cons.1 hb with rfl | hb
          · rw [ht]; push_cast; constructor <;> linarith
          · have := h2 b hb
            push_cast; constructor <;> linarith
where
  half_pos_le {dt : ℝ} (h : 0 ≤ dt) : 0 ≤ dt / 2 := by linarith

/-! ### all tip states of a stroke -/

theorem move_answer {s : State} {x : ℂ} {t : ℝ} {tips : List Tip} (h : (advance P s (.move x t)).2 = some tips) :
    ∃ n : ℤ, n = steps P s.tip x (t - s.anchor.2) ∧ n ≤ P.maxOut ∧
      tips = follow P s.tip (upsample s.anchor ((smooth P s x t).2, t) n.toNat) ∧
      (advance P s (.move x t)).1 = ⟨tips.getLastD s.tip, (smooth P s x t).1, ((smooth P s x t).2, t)⟩ := by
  simp only [advance, move] at h ⊢
  split at h
  · rename_i hn
    refine ⟨_, rfl, hn, ?_⟩
    simp only [Option.some.injEq] at h
    rw [if_pos hn, ← h]
    exact ⟨rfl, rfl⟩
  · simp at h

theorem move_late {s : State} {x : ℂ} {t : ℝ} (h : (advance P s (.move x t)).2 = none) :
    P.maxOut < steps P s.tip x (t - s.anchor.2) ∧ (advance P s (.move x t)).1 = { s with window := (smooth P s x t).1 } := by
  simp only [advance, move] at h ⊢
  split at h
  · simp at h
  · rename_i hn
    rw [if_neg hn]
    exact ⟨not_le.1 hn, rfl⟩

theorem up_answer {s : State} {x : ℂ} {t : ℝ} {tips : List Tip} (h : (advance P s (.up x t)).2 = some tips) :
    ∃ n : ℤ, n = steps P s.tip x (t - s.anchor.2) ∧ n ≤ P.maxOut ∧
      ∃ path, path = follow P s.tip (upsample s.anchor (x, t) n.toNat) ∧
      ∃ ending cand, (cand, ending) = settle P x P.maxIter (1 / P.rate) (path.getLastD s.tip) ∧
      tips = if path ++ ending = [] then [cand] else path ++ ending := by
  simp only [advance, up] at h
  split at h
  · rename_i hn
    simp only [Option.some.injEq] at h
    exact ⟨_, rfl, hn, _, rfl, _, _, rfl, h.symm⟩
  · simp at h

/-- All tip states of a stroke in order. -/
def told (P : Params) (pos : ℂ) (time : ℝ) (is : List Touch) : List Tip :=
  (stroke P pos time is).flatMap fun o => o.getD []

theorem told_append (pos : ℂ) (time : ℝ) (is : List Touch) (i : Touch) :
    told P pos time (is ++ [i]) = told P pos time is ++ ((advance P (after P (start pos time) is) i).2).getD [] := by
  simp only [told, stroke, answers_append, ← List.cons_append, List.flatMap_append]
  simp

/-- A Move. -/
def Touch.IsMove : Touch → Prop
  | .move _ _ => True
  | .up _ _ => False

theorem told_last (pos : ℂ) (time : ℝ) (is : List Touch) (hm : ∀ i ∈ is, i.IsMove) :
    (told P pos time is).getLast? = some (after P (start pos time) is).tip := by
  induction is using List.reverseRecOn with
  | nil => simp [told, stroke, answers, after]
  | append_singleton is i ih =>
    have ih := ih fun j hj => hm j (by simp [hj])
    rw [told_append, after_append, List.getLast?_append, ih]
    cases i with
    | up x t => exact absurd (hm (.up x t) (by simp)) id
    | move x t =>
      cases ha : (advance P (after P (start pos time) is) (.move x t)).2 with
      | none => rw [(move_late ha).2]; simp
      | some tips =>
        obtain ⟨n, _, _, _, hs⟩ := move_answer ha
        rw [hs]
        simp only [Option.getD_some, List.getLastD_eq_getLast?]
        cases tips.getLast? <;> simp

/-- Time passes from one tip state to the next, but not much. -/
def Gap (P : Params) (a b : Tip) : Prop := a.time ≤ b.time ∧ (P.maxOut < 2147483647 → b.time - a.time ≤ 1 / P.rate)

theorem path_gap (hv : P.Valid) {s : State} (hs : Synced s) {x y : ℂ} {t : ℝ} (hle : s.anchor.2 ≤ t)
    (hn : steps P s.tip x (t - s.anchor.2) ≤ P.maxOut) :
    (s.tip :: follow P s.tip (upsample s.anchor (y, t) (steps P s.tip x (t - s.anchor.2)).toNat)).IsChain (Gap P) := by
  refine (follow_chain hs).imp fun a b h => ?_
  set n := steps P s.tip x (t - s.anchor.2) with hn'
  have h0 : 0 ≤ n := steps_nonneg hv _ _ (sub_nonneg.2 hle)
  have hcast : ((n.toNat : ℕ) : ℝ) = n := by exact_mod_cast Int.toNat_of_nonneg h0
  rw [hcast] at h
  have hnr : (0 : ℝ) ≤ n := by exact_mod_cast h0
  refine ⟨?_, fun hmax => ?_⟩
  · have : 0 ≤ (t - s.anchor.2) / n := div_nonneg (sub_nonneg.2 hle) hnr
    linarith
  · rw [h]
    rcases hnr.eq_or_lt with h1 | h1
    · rw [← h1, div_zero]; exact div_nonneg zero_le_one hv.rate.le
    · rw [div_le_div_iff₀ h1 hv.rate, one_mul]
      exact steps_rate s.tip x (.inl (lt_of_le_of_lt hn hmax))

theorem chain_append {α : Type} {R : α → α → Prop} {q : α} {l l' : List α} (h : (q :: l).IsChain R)
    (h' : (l.getLastD q :: l').IsChain R) : (q :: (l ++ l')).IsChain R := by
  induction l generalizing q with
  | nil => simpa using h'
  | cons a l ih =>
    rw [List.isChain_cons_cons] at h
    rw [List.getLastD_cons] at h'
    exact List.isChain_cons_cons.2 ⟨h.1, ih h.2 h'⟩

/-- The answer to an input continues the stroke. -/
theorem answer_gap (hv : P.Valid) {s : State} (hs : Synced s) {i : Touch} (hle : s.anchor.2 ≤ i.time) {tips : List Tip}
    (h : (advance P s i).2 = some tips) : (s.tip :: tips).IsChain (Gap P) := by
  cases i with
  | move x t =>
    obtain ⟨n, rfl, hmax, rfl, _⟩ := move_answer h
    exact path_gap hv hs hle hmax
  | up x t =>
    obtain ⟨n, rfl, hmax, path, hp, ending, cand, he, htips⟩ := up_answer h
    replace hle : s.anchor.2 ≤ t := hle
    have hpath := path_gap (y := x) hv hs hle hmax
    rw [← hp] at hpath
    obtain ⟨h1, h2, h3⟩ := settle_times (P := P) x P.maxIter (one_div_pos.2 hv.rate).le (path.getLastD s.tip)
    rw [← he] at h1 h2 h3
    dsimp only at h1 h2 h3
    rw [htips]
    split
    · rename_i h0
      obtain ⟨rfl, rfl⟩ := List.append_eq_nil_iff.1 h0
      obtain ⟨h4, h5, _⟩ := h3 rfl
      simp only [List.getLastD_nil] at h4 h5
      exact List.isChain_cons_cons.2 ⟨⟨h4, fun _ => by linarith⟩, List.isChain_singleton _⟩
    · exact chain_append hpath (h1.imp fun a b h => ⟨h.1, fun _ => h.2⟩)

/-- Along a stroke time goes on in small steps. -/
theorem told_gap (hv : P.Valid) (pos : ℂ) (time : ℝ) (is : List Touch) (ho : Ordered P (start pos time) is)
    (hm : ∀ l i, is = l ++ [i] → ∀ j ∈ l, j.IsMove) : (told P pos time is).IsChain (Gap P) := by
  induction is using List.reverseRecOn with
  | nil => simp [told, stroke, answers]
  | append_singleton is i ih =>
    rw [ordered_append] at ho
    have hmv := hm is i rfl
    have ih := ih ho.1 fun l j hj k hk => hmv k (by rw [hj]; simp [hk])
    rw [told_append]
    cases ha : (advance P (after P (start pos time) is) i).2 with
    | none => simpa using ih
    | some tips =>
      have := answer_gap hv (synced_after hv (synced_start pos time) ho.1) ho.2 ha
      rw [Option.getD_some, List.isChain_append]
      refine ⟨ih, this.tail, fun x hx y hy => ?_⟩
      rw [told_last pos time is hmv, Option.mem_some_iff] at hx
      cases tips with
      | nil => simp at hy
      | cons z tips =>
        simp only [List.head?_cons, Option.mem_some_iff] at hy
        rw [← hx, ← hy]
        exact (List.isChain_cons_cons.1 this).1

/-- The times of the answer to a Move. -/
theorem move_times (hv : P.Valid) {s : State} (hs : Synced s) {x : ℂ} {t : ℝ} (hle : s.anchor.2 ≤ t) {tips : List Tip}
    (h : (advance P s (.move x t)).2 = some tips) :
    (∀ u ∈ tips, s.anchor.2 ≤ u.time ∧ (s.anchor.2 < t → s.anchor.2 < u.time) ∧ u.time ≤ t) ∧
    (∀ u, tips.getLast? = some u → u.time = t) ∧ (tips = [] → s.anchor.2 = t) := by
  obtain ⟨n, hn, _, htips, _⟩ := move_answer h
  have hlast : (tips.getLastD s.tip).time = t := by
    rw [htips, hn]; exact follow_last_time (no_step hv hs hle)
  refine ⟨fun u hu => ?_, fun u hu => ?_, fun h0 => ?_⟩
  · rw [htips] at hu
    obtain ⟨h1, h2⟩ := follow_times_mem (b := ((smooth P s x t).2, t)) hle u hu
    refine ⟨h1, fun hlt => ?_, h2⟩
    have : u.time ∈ (follow P s.tip (upsample s.anchor ((smooth P s x t).2, t) n.toNat)).map Tip.time := List.mem_map_of_mem hu
    rw [follow_time, upsample_time] at this
    simp only [List.mem_map, List.mem_range] at this
    obtain ⟨k, hk, hu⟩ := this
    rw [← hu]
    have hn : (0 : ℝ) < (n.toNat : ℕ) := by exact_mod_cast (by omega : 0 < n.toNat)
    have : 0 < (k + 1 : ℝ) / (n.toNat : ℕ) := by positivity
    simp only [lerp, smul_eq_mul]
    nlinarith
  · rw [List.getLastD_eq_getLast?, hu] at hlast; exact hlast
  · rw [h0] at hlast; rw [← hs]; exact hlast

/-- The times of the answer to an Up. -/
theorem up_times (hv : P.Valid) {s : State} (hs : Synced s) {x : ℂ} {t : ℝ} (hle : s.anchor.2 ≤ t) {tips : List Tip}
    (h : (advance P s (.up x t)).2 = some tips) :
    tips ≠ [] ∧ (∀ u ∈ tips, s.anchor.2 ≤ u.time ∧ u.time ≤ t + P.maxIter / P.rate) ∧
    ∀ u, tips.getLast? = some u → t ≤ u.time := by
  obtain ⟨n, hn, _, path, hpath, ending, cand, he, htips⟩ := up_answer h
  have hlast : (path.getLastD s.tip).time = t := by
    rw [hpath, hn]; exact follow_last_time (no_step hv hs hle)
  obtain ⟨h1, h2, h3⟩ := settle_times (P := P) x P.maxIter (one_div_pos.2 hv.rate).le (path.getLastD s.tip)
  rw [← he] at h1 h2 h3
  dsimp only at h1 h2 h3
  rw [hlast, mul_one_div] at h2 h3
  have hpos : (0 : ℝ) ≤ P.maxIter / P.rate := div_nonneg (Nat.cast_nonneg _) hv.rate.le
  rw [htips]
  split
  · rename_i h0
    obtain ⟨rfl, rfl⟩ := List.append_eq_nil_iff.1 h0
    obtain ⟨h4, h5, h6⟩ := h3 rfl
    simp only [ne_eq, List.cons_ne_nil, not_false_eq_true, List.mem_singleton, forall_eq, List.getLast?_singleton,
      Option.some.injEq, forall_eq', true_and]
    exact ⟨⟨hle.trans h4, h6⟩, h4⟩
  · rename_i h0
    refine ⟨h0, fun u hu => ?_, fun u hu => ?_⟩
    · rcases List.mem_append.1 hu with hu | hu
      · rw [hpath] at hu
        obtain ⟨h4, h5⟩ := follow_times_mem (b := (x, t)) hle u hu
        exact ⟨h4, h5.trans (by simpa using hpos)⟩
      · exact ⟨hle.trans (h2 u hu).1, (h2 u hu).2⟩
    · rw [List.getLast?_append] at hu
      cases hl : ending.getLast? with
      | some v =>
        rw [hl] at hu
        simp only [Option.some_or, Option.some.injEq] at hu
        rw [← hu]
        exact (h2 v (List.mem_of_getLast? hl)).1
      | none =>
        rw [hl] at hu
        simp only [Option.none_or] at hu
        rw [List.getLastD_eq_getLast?, hu] at hlast
        exact hlast.ge

end
end Ink.Ref
