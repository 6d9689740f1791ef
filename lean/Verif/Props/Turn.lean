import Verif.Exact.Told
import Verif.Examples.Exact
import Verif.IEEE.Value
/-!
# C50, C52: the angle between two vectors and the number of steps
-/
namespace Ink
open Scalar Arith XR

section Exact
variable {ops : List (Op XR XR)} {rs : List (Response XR XR)} {m : StrokeModeler XR XR} {p : StrokeModelParams XR XR}
  {e f : Event XR XR} {a b : List (Event XR XR)}

/-- C50 on exact numbers: `AbsoluteAngleTo` fails if and only if a component is not finite. For finite vectors it is 0 if one of
them is zero and otherwise the Euclidean angle; it lies in [0, π] and does not depend on the order. -/
theorem C50_angle_exact (v w : Vec2 XR) :
    (v.absoluteAngleTo w = none ↔ ¬ (isFinite v.x ∧ isFinite v.y ∧ isFinite w.x ∧ isFinite w.y)) ∧
    (∀ a b : ℂ, v = V a → w = V b → ∃ θ : ℝ, v.absoluteAngleTo w = some (fin θ) ∧ 0 ≤ θ ∧ θ ≤ Real.pi ∧
      w.absoluteAngleTo v = some (fin θ) ∧ (a = 0 ∨ b = 0 → θ = 0) ∧
      (a ≠ 0 → b ≠ 0 → θ = InnerProductGeometry.angle a b)) := by
  constructor
  · unfold Vec2.absoluteAngleTo Vec2.isFinite
    dsimp only
    split
    · rename_i hc
      simp only [true_iff]
      rintro ⟨h1, h2, h3, h4⟩
      simp [h1, h2, h3, h4] at hc
    · rename_i hc
      simp only [Bool.not_and, Bool.or_eq_true, Bool.not_eq_true', not_or, Bool.not_eq_false] at hc
      have : ¬ ¬ (isFinite v.x = true ∧ isFinite v.y = true ∧ isFinite w.x = true ∧ isFinite w.y = true) :=
        not_not.2 ⟨hc.1.1, hc.1.2, hc.2.1, hc.2.2⟩
      simp only [this, iff_false]
      split <;> simp
  · rintro a b rfl rfl
    refine ⟨Ref.turn a b, absoluteAngleTo_eq a b, turn_nonneg a b, ?_, ?_, fun h => if_pos h, fun h1 h2 => if_neg (by simp [h1, h2])⟩
    · unfold Ref.turn
      split
      · exact Real.pi_pos.le
      · exact InnerProductGeometry.angle_le_pi _ _
    · rw [absoluteAngleTo_eq]
      unfold Ref.turn
      rw [InnerProductGeometry.angle_comm]
      simp only [or_comm (a := b = 0)]

/-- The requirements on the number of steps towards an input at `x`, `dt` after the tip `q`: at least `rate` steps per unit of
time, and no more than the maximal angle per step, where the angle is that between the velocity of the tip and the velocity it
would have after a single step without drag. -/
def EnoughSteps (p : StrokeModelParams XR XR) (rate mass dt : ℝ) (q : Ref.Tip) (x : ℂ) (k : ℕ) : Prop :=
  dt * rate ≤ k ∧ ∀ α : ℝ, p.sampling.maxEstimatedAngle = fin α → α ≠ -1 →
    Ref.turn q.vel (q.vel + (dt / mass) • (x - q.pos)) ≤ k * α

theorem steps_least {P : Ref.Params} (hr : Realizes p P) (hv : P.Valid) (q : Ref.Tip) (x : ℂ) {dt : ℝ} (h : 0 ≤ dt) :
    ∃ N : ℕ, IsLeast {k : ℕ | EnoughSteps p P.rate P.mass dt q x k} N ∧ Ref.steps P q x dt = min 2147483647 (N : ℤ) := by
  have h0 : 0 ≤ ⌈dt * P.rate⌉ := Int.ceil_nonneg (mul_nonneg h hv.rate.le)
  cases ha : P.maxAngle with
  | none =>
    have hma := hr.maxAngle
    rw [ha] at hma
    dsimp only at hma
    refine ⟨⌈dt * P.rate⌉.toNat, ⟨⟨?_, ?_⟩, ?_⟩, ?_⟩
    · have : ((⌈dt * P.rate⌉.toNat : ℕ) : ℝ) = ((⌈dt * P.rate⌉ : ℤ) : ℝ) := by
        exact_mod_cast congrArg (Int.cast : ℤ → ℝ) (Int.toNat_of_nonneg h0)
      rw [this]; exact Int.le_ceil _
    · intro α hα hne
      rw [hma, fin_inj] at hα
      exact absurd hα.symm hne
    · rintro k ⟨hk, _⟩
      have : ⌈dt * P.rate⌉ ≤ (k : ℤ) := Int.ceil_le.2 (by exact_mod_cast hk)
      omega
    · unfold Ref.steps
      rw [ha, Int.toNat_of_nonneg h0, max_eq_left h0]
  | some α =>
    have hma := hr.maxAngle
    rw [ha] at hma
    dsimp only at hma
    have hpos := (hv.maxAngle α ha).1
    set θ := Ref.turn q.vel (q.vel + (dt / P.mass) • (x - q.pos)) with hθ
    set n := max ⌈dt * P.rate⌉ ⌈θ / α⌉ with hn
    have hn0 : 0 ≤ n := le_max_of_le_left h0
    have hcast : ((n.toNat : ℕ) : ℝ) = ((n : ℤ) : ℝ) := by
      exact_mod_cast congrArg (Int.cast : ℤ → ℝ) (Int.toNat_of_nonneg hn0)
    refine ⟨n.toNat, ⟨⟨?_, ?_⟩, ?_⟩, ?_⟩
    · rw [hcast]
      exact (Int.le_ceil _).trans (by exact_mod_cast le_max_left _ _)
    · intro β hβ hne
      rw [hma, fin_inj] at hβ
      subst hβ
      rw [hcast, ← div_le_iff₀ hpos]
      exact (Int.le_ceil _).trans (by exact_mod_cast le_max_right _ _)
    · rintro k ⟨hk, hk'⟩
      have h1 : ⌈dt * P.rate⌉ ≤ (k : ℤ) := Int.ceil_le.2 (by exact_mod_cast hk)
      have h2 : ⌈θ / α⌉ ≤ (k : ℤ) := by
        refine Int.ceil_le.2 ?_
        rw [div_le_iff₀ hpos]
        exact_mod_cast hk' α hma (by linarith)
      have : n ≤ (k : ℤ) := max_le h1 h2
      omega
    · unfold Ref.steps
      rw [ha, Int.toNat_of_nonneg hn0]
      rfl

/-- C52: the number of steps towards an input of a stroke is the least `N` that meets the requirements of the output rate and of
the maximal angle, cut off at the largest int. The input is accepted if and only if this is within max_outputs_per_call. A Move
has that many results; an Up has them before its end-of-stroke results, the last of them being at the time of the Up. The tip `q`
is the end of the spring model of the inputs so far; without loop mitigation it is the last result. -/
theorem C52_least_steps_exact (h : Session ops rs m) (hr : Regular ops rs) (hp : (known ops rs).params = some p)
    (hl : LoopOk p.position.loop) (hs : strokeOf ops rs = e :: (a ++ f :: b)) :
    ∃ (P : Ref.Params) (q : Ref.Tip) (x : ℂ) (t : ℝ) (N : ℕ), Realizes p P ∧ P.Valid ∧ f.input.position = V x ∧ f.input.time = fin t ∧
      q.time ≤ t ∧ (Ref.told P (toPoint e.input.position) (toReal e.input.time) (a.map fun f => touch f.input)).getLast? = some q ∧
      (p.position.loop.isEnabled = false → (resultsOf (e :: a)).getLast?.map Result.kin = some (tip q)) ∧
      IsLeast {k : ℕ | EnoughSteps p P.rate P.mass (t - q.time) q x k} N ∧
      (f.results ≠ none ↔ min 2147483647 (N : ℤ) ≤ p.sampling.maxOutputsPerCall) ∧
      ∀ out, f.results = some out →
        (f.input.eventType = .move → out.length = min 2147483647 N) ∧
        (f.input.eventType = .up → min 2147483647 N ≤ out.length ∧
          ∀ r, (out.take (min 2147483647 N)).getLast? = some r → r.time = fin t) := by
  obtain ⟨P, m₀, h1, h2, hc, _⟩ := h.stroke hr hp hs
  obtain ⟨m', hc', ht⟩ := course_told h1 h2 (e := e) (a := a) (f := f) (b := b) (by simpa using hc)
  have hm := course_moves h1 h2 hc
  obtain ⟨hord1, hord2⟩ := ht.order a f rfl
  rw [touch_time] at hord2
  have hfin := (ht.inputs f (by simp)).1
  obtain ⟨hx, htm⟩ := finiteInput_eq hfin
  obtain ⟨m₁, h₁⟩ := hc.take (a := e :: a) (b := f :: b) (by simp)
  obtain ⟨ho, _⟩ := course_ordered h1 h2 h₁
  have hsync : Ref.Synced (state P e a) := Ref.synced_after h2 (Ref.synced_start _ _) ho
  have hs' : (state P e a).tip.time = (state P e a).anchor.2 := hsync
  have hdt : 0 ≤ toReal f.input.time - (state P e a).anchor.2 := by linarith
  obtain ⟨N, hN, hst⟩ := steps_least h1 h2 (state P e a).tip (toPoint f.input.position) hdt
  have hto : (Ref.steps P (state P e a).tip (toPoint f.input.position) (toReal f.input.time - (state P e a).anchor.2)).toNat =
      min 2147483647 N := by rw [hst]; omega
  have hans := ht.answer a f rfl
  refine ⟨P, (state P e a).tip, _, _, N, h1, h2, hx, htm, by rw [hs']; exact hord2, Ref.told_last _ _ _ hm, ?_,
    by rw [hs']; exact hN, ?_, ?_⟩
  · intro hoff
    rw [← List.getLast?_map, course_results h1 h2 h₁ hoff, List.getLast?_map, Ref.told_last _ _ _ hm]
    rfl
  · rw [← hst, h1.maxOut]
    by_cases hu : f.input.eventType = .up
    · have htouch : touch f.input = .up (toPoint f.input.position) (toReal f.input.time) := by simp [touch, hu]
      rw [htouch] at hans
      cases hf : f.results with
      | none =>
        rw [hf] at hans
        simp only [Ref.advance, Ref.up] at hans
        simp only [ne_eq, not_true_eq_false, false_iff, not_le]
        by_contra hcon
        rw [if_pos (not_lt.1 hcon)] at hans
        simp at hans
      | some out =>
        rw [hf] at hans
        obtain ⟨tips, hans, _⟩ := hans
        obtain ⟨n, hn, hmax, _⟩ := Ref.up_answer hans
        simpa [← hn] using hmax
    · have htouch : touch f.input = .move (toPoint f.input.position) (toReal f.input.time) := by simp [touch, hu]
      rw [htouch] at hans
      cases hf : f.results with
      | none =>
        rw [hf] at hans
        simpa using (Ref.move_late hans).1
      | some out =>
        rw [hf] at hans
        obtain ⟨tips, hans, _⟩ := hans
        obtain ⟨n, hn, hmax, _⟩ := Ref.move_answer hans
        simpa [← hn] using hmax
  · intro out hf
    obtain ⟨tips, prev, h3, h4, h5, h6, h7, h8, h9, _⟩ := course_answer h1 h2 hc hf
    have htimes := h9 hl
    refine ⟨fun hmv => ?_, fun hu => ?_⟩
    · have htouch : touch f.input = .move (toPoint f.input.position) (toReal f.input.time) := by simp [touch, hmv]
      rw [htouch] at h3
      obtain ⟨n, hn, hmax, htips, _⟩ := Ref.move_answer h3
      have := congrArg List.length htimes
      rw [List.length_map, List.length_map, htips, Ref.follow_length, Ref.upsample_length, hn, hto] at this
      exact this
    · have htouch : touch f.input = .up (toPoint f.input.position) (toReal f.input.time) := by simp [touch, hu]
      rw [htouch] at h3
      obtain ⟨n, hn, hmax, path, hpath, ending, cand, hset, htips⟩ := Ref.up_answer h3
      have hlast : (path.getLastD (state P e a).tip).time = toReal f.input.time := by
        rw [hpath, hn]; exact Ref.follow_last_time (Ref.no_step h2 h6 h7)
      have hplen : path.length = min 2147483647 N := by rw [hpath, Ref.follow_length, Ref.upsample_length, hn, hto]
      rw [← hplen]
      have hlen := congrArg List.length htimes
      rw [List.length_map, List.length_map] at hlen
      by_cases hnil : path = []
      · simp [hnil]
      · have htips : tips = path ++ ending := by rw [htips, if_neg (by simp [hnil])]
        refine ⟨by rw [hlen, htips]; simp, fun r hr => ?_⟩
        have : ((out.take path.length).map (·.time)).getLast? = some (fin (path.getLastD (state P e a).tip).time) := by
          rw [List.map_take, htimes, htips, ← List.map_take, List.take_left, List.getLast?_map, List.getLastD_eq_getLast?]
          obtain ⟨l, u, hlu⟩ := List.eq_nil_or_concat path |>.resolve_left hnil
          simp [hlu]
        rw [List.getLast?_map, hr, hlast] at this
        simpa using this

section Examples
open Ex

/-- The parameters of the unit tests with a maximal angle and without a limit on the outputs. -/
noncomputable def xangle : StrokeModelParams XR XR :=
  { xparams with sampling := { xparams.sampling with maxOutputsPerCall := 2147483647, maxEstimatedAngle := fin (1 / 10) } }

theorem xangle_valid : validateStrokeModelParams xangle = .ok := by
  unfold xangle xparams
  have h2 : ¬ Real.pi ≤ 1 / 10 := by have := Real.two_le_pi; norm_num; linarith
  valid
  rw [if_neg h2]
  rfl

/-- The theorem applies to the second Move of a stroke and to its Up. -/
example : ∃ rs m e a f b, Session (calls xangle xinputs) rs m ∧ Regular (calls xangle xinputs) rs ∧
    (known (calls xangle xinputs) rs).params = some xangle ∧ LoopOk xangle.position.loop ∧
    strokeOf (calls xangle xinputs) rs = e :: (a ++ f :: b) ∧ a ≠ [] ∧ f.input.eventType = .move ∧ f.results ≠ none := by
  obtain ⟨rs, m, h1, h2, h3, h4, h5⟩ := exists_stroke (p := xangle) (i := xin .down (pt 3 4) 0 0.2 1 2) (is := xinputs.tail)
    xangle_valid rfl ⟨isFinite_fin _, isFinite_fin _, isFinite_fin _⟩ (good_fin _)
    ⟨fits_xin (by norm_num), .inl rfl, good_fin _, .inl rfl, fits_xin (by norm_num), .inl rfl, good_fin _, .inl rfl,
      fits_xin (by norm_num), .inl rfl, good_fin _, .inr ⟨rfl, rfl⟩, trivial⟩ (by simp [xinputs])
  obtain ⟨o₁, o₂, o₃, o₄, h6⟩ := xevents (p := xangle) h4 h5
  exact ⟨rs, m, _, [_], _, [_], h1, h2, h3, .inl rfl, h6, by simp, rfl, by simp⟩

end Examples
end Exact

/-! ## C50 on floats -/

namespace Fl
variable {f : Fmt}

theorem mk'_comm_neg (a b : Bool) : (a != b) = (b != a) := by cases a <;> cases b <;> rfl

theorem mul_comm' (x y : Fl f) : x * y = y * x := by
  change mul x y = mul y x
  cases x <;> cases y <;> simp only [mul, mk'_comm_neg, Nat.mul_comm]

theorem finite_of_isFinite {x : Fl f} (h : isFinite x = true) : Finite x := by
  have : (!isNaN x && !isInf x) = true := h
  simpa [Finite] using this

theorem key_one : key (1 : Fl f) = 2 ^ f.q := by
  have h : val (1 : Fl f) = some 1 := val_one
  have hf : Finite (1 : Fl f) := by
    exact finite_of_isFinite (isFinite_val.2 ⟨1, by simpa using h⟩)
  rw [val_fin_key hf] at h
  have h' : (((key (1 : Fl f) : ℝ) / 2 ^ f.q : ℝ) : EReal) = ((1 : ℝ) : EReal) := by simpa using h
  have := EReal.coe_injective h'
  rw [div_eq_one_iff_eq (by positivity)] at this
  exact_mod_cast this

theorem finite_one : Finite (1 : Fl f) := finite_of_isFinite (isFinite_val.2 ⟨1, by simpa using val_one⟩)

/-- the magnitude of a vector is at least that of its components -/
theorem hypot_ge_keys [Libm] {x y : Fl f32} (hx : Finite x) (hy : Finite y) :
    isNaN (Fl.hypot x y) = false ∧ |key x| ≤ key (Fl.hypot x y) ∧ |key y| ≤ key (Fl.hypot x y) := by
  obtain ⟨a, k, hk, rfl⟩ := finite_iff.1 hx
  obtain ⟨b, l, hl, rfl⟩ := finite_iff.1 hy
  simp only [Fl.hypot]
  have e : ∀ (c : Bool) (n : ℕ) (h : f32.Rep n), |key (fin c n h)| = n := by
    intro c n h; cases c <;> simp [key, sgn]
  rw [e, e]
  split
  · rename_i h0; subst h0; exact ⟨rfl, by simp [key, sgn], by simp [key, sgn]⟩
  · split
    · rename_i h0; subst h0; exact ⟨rfl, by simp [key, sgn], by simp [key, sgn]⟩
    · obtain ⟨h1, h2⟩ := Libm.hypot_ge (fin a k hk) (fin b l hl) ⟨rfl, rfl⟩ ⟨rfl, rfl⟩
      rw [le_iff, key_abs, e] at h1 h2
      exact ⟨h1.2.1, h1.2.2, h2.2.2⟩

/-- a number divided by one that is at least its magnitude -/
theorem div_le_one' {x y : Fl f} (hx : Finite x) (hn : isNaN y = false) (h : |key x| ≤ key y) (h0 : key y ≠ 0) :
    Finite (x / y) ∧ |key (x / y)| ≤ 2 ^ f.q := by
  cases y with
  | nan => simp [isNaN] at hn
  | inf c =>
    obtain ⟨a, k, hk, rfl⟩ := finite_iff.1 hx
    exact ⟨⟨rfl, rfl⟩, by change |key (fin (a != c) 0 _)| ≤ _; simp [key, sgn]⟩
  | fin c l hl =>
    set y : Fl f := fin c l hl with hy
    have hyf : Finite y := ⟨rfl, rfl⟩
    have hpos : 0 < key y := lt_of_le_of_ne ((abs_nonneg _).trans h) (Ne.symm h0)
    have hkey := key_div hx hyf h0
    have hbound : |key (x / y)| ≤ 2 ^ f.q := by
      have hposR : (0 : ℝ) < key y := by exact_mod_cast hpos
      have hR : |(key x : ℝ)| ≤ key y := by exact_mod_cast h
      rw [abs_le] at hR
      have hq : (0 : ℝ) < 2 ^ f.q := by positivity
      have hone : RK f ((2 : ℝ) ^ f.q) = 2 ^ f.q := by
        have := RK_key (1 : Fl f) finite_one
        rw [key_one] at this
        exact_mod_cast this
      rw [hkey, abs_le]
      constructor
      · rw [← hone, ← RK_neg]
        apply RK_mono
        rw [le_div_iff₀ hposR]; nlinarith
      · rw [← hone]
        apply RK_mono
        rw [div_le_iff₀ hposR]; nlinarith
    refine ⟨finite_of_key (div_not_nan hx hyf h0) (hbound.trans ?_), hbound⟩
    have := abs_key_le_of_finite (finite_one (f := f))
    rw [key_one, abs_of_nonneg (by positivity)] at this
    exact this

theorem mul_le_one' {x y : Fl f} (hx : Finite x) (hy : Finite y) (h1 : |key x| ≤ 2 ^ f.q) (h2 : |key y| ≤ 2 ^ f.q) :
    Finite (x * y) ∧ |key (x * y)| ≤ 2 ^ f.q := by
  have hbound : |key (x * y)| ≤ 2 ^ f.q := by
    have hq : (0 : ℝ) < 2 ^ f.q := by positivity
    have hone : RK f ((2 : ℝ) ^ f.q) = 2 ^ f.q := by
      have := RK_key (1 : Fl f) finite_one
      rw [key_one] at this
      exact_mod_cast this
    have g1 : |(key x : ℝ)| ≤ 2 ^ f.q := by exact_mod_cast h1
    have g2 : |(key y : ℝ)| ≤ 2 ^ f.q := by exact_mod_cast h2
    have g3 : |(key x : ℝ) * key y| ≤ 2 ^ f.q * 2 ^ f.q := by
      rw [abs_mul]; exact mul_le_mul g1 g2 (abs_nonneg _) hq.le
    rw [abs_le] at g3
    rw [key_mul hx hy, abs_le]
    constructor
    · rw [← hone, ← RK_neg]
      apply RK_mono
      rw [le_div_iff₀ hq]; linarith [g3.1]
    · rw [← hone]
      apply RK_mono
      rw [div_le_iff₀ hq]; linarith [g3.2]
  refine ⟨finite_of_key (mul_not_nan hx hy) (hbound.trans ?_), hbound⟩
  have := abs_key_le_of_finite (finite_one (f := f))
  rw [key_one, abs_of_nonneg (by positivity)] at this
  exact this

theorem neg_one_le_one : (-(1 : Fl f)) ≤ᵇ 1 := by
  have := key_one (f := f)
  have h1 : isNaN (1 : Fl f) = false := finite_one.1
  refine le_iff.2 ⟨by rw [neg_isNaN]; exact h1, h1, ?_⟩
  rw [key_neg, this]
  have : (0 : ℤ) < 2 ^ f.q := by positivity
  omega

theorem clamp_range {x lo hi : Fl f} (hx : isNaN x = false) (h : (lo ≤ᵇ hi) = true) :
    (lo ≤ᵇ stdClamp x lo hi) = true ∧ (stdClamp x lo hi ≤ᵇ hi) = true := by
  have hle : ∀ a b : Fl f, (a ≤ᵇ b) = le a b := fun _ _ => rfl
  have hlt : ∀ a b : Fl f, (a <ᵇ b) = lt a b := fun _ _ => rfl
  rw [hle, le_iff] at h
  unfold stdClamp
  simp only [hle, le_iff]
  split
  · exact ⟨⟨h.1, h.1, le_rfl⟩, h⟩
  · rename_i h1
    rw [hlt, lt_iff] at h1
    split
    · exact ⟨h, h.2.1, h.2.1, le_rfl⟩
    · rename_i h2
      rw [hlt, lt_iff] at h2
      exact ⟨⟨h.1, hx, by by_contra hc; exact h1 ⟨hx, h.1, by omega⟩⟩, hx, h.2.1, by by_contra hc; exact h2 ⟨h.2.1, hx, by omega⟩⟩

end Fl

open Fl in
/-- C50 on floats: `AbsoluteAngleTo` fails if and only if a component is NaN or infinite. Otherwise it gives a number from 0 to
the float nearest to π, whatever overflows or underflows on the way; the order of the vectors does not matter, and for a zero
vector it is 0. -/
theorem C50_angle_float [Libm] (v w : Vec2 (Fl f32)) :
    (v.absoluteAngleTo w = none ↔ ¬ (IsReal v.x ∧ IsReal v.y ∧ IsReal w.x ∧ IsReal w.y)) ∧
    (IsReal v.x → IsReal v.y → IsReal w.x → IsReal w.y → ∃ θ, v.absoluteAngleTo w = some θ ∧
      AtMost 0 θ ∧ AtMost θ (Scalar.ofRatio 13176795 4194304) ∧ w.absoluteAngleTo v = some θ ∧
      (Same v.x 0 ∧ Same v.y 0 → θ = 0)) := by
  have hfin : (v.isFinite = true ∧ w.isFinite = true) ↔ (IsReal v.x ∧ IsReal v.y ∧ IsReal w.x ∧ IsReal w.y) := by
    simp only [Vec2.isFinite, Bool.and_eq_true, isFinite_val, and_assoc]
  rw [← hfin]
  constructor
  · unfold Vec2.absoluteAngleTo
    dsimp only
    split
    · rename_i hc
      simp only [true_iff]
      rintro ⟨h1, h2⟩
      simp [h1, h2] at hc
    · rename_i hc
      simp only [Bool.or_eq_true, Bool.not_eq_true', not_or, Bool.not_eq_false] at hc
      simp only [hc, and_self, not_true_eq_false, iff_false]
      split <;> simp
  · intro h1 h2 h3 h4
    obtain ⟨hv, hw⟩ := hfin.2 ⟨h1, h2, h3, h4⟩
    have k1 := finite_of_isFinite (isFinite_val.2 h1)
    have k2 := finite_of_isFinite (isFinite_val.2 h2)
    have k3 := finite_of_isFinite (isFinite_val.2 h3)
    have k4 := finite_of_isFinite (isFinite_val.2 h4)
    obtain ⟨m1, m2, m3⟩ := hypot_ge_keys k1 k2
    obtain ⟨n1, n2, n3⟩ := hypot_ge_keys k3 k4
    have hm : v.magnitude = Fl.hypot v.x v.y := rfl
    have hn : w.magnitude = Fl.hypot w.x w.y := rfl
    rw [← hm] at m1 m2 m3
    rw [← hn] at n1 n2 n3
    have hk0 : key (0 : Fl f32) = 0 := by decide +kernel
    have hn0 : Fl.isNaN (0 : Fl f32) = false := by decide +kernel
    have hz : ∀ x : Fl f32, Fl.isNaN x = false → ((x =ᵇ 0) = true ↔ key x = 0) := by
      intro x hx
      change Fl.eq x 0 = true ↔ _
      rw [eq_iff, hk0]
      simp [hx, hn0]
    by_cases hzero : (v.magnitude =ᵇ 0 || w.magnitude =ᵇ 0) = true
    · have e1 : v.absoluteAngleTo w = some 0 := by
        unfold Vec2.absoluteAngleTo
        simp only [hv, hw, Bool.not_true, Bool.or_self, Bool.false_eq_true, ↓reduceIte, hzero]
      have e2 : w.absoluteAngleTo v = some 0 := by
        unfold Vec2.absoluteAngleTo
        rw [Bool.or_comm] at hzero
        simp only [hv, hw, Bool.not_true, Bool.or_self, Bool.false_eq_true, ↓reduceIte, hzero]
      exact ⟨0, e1, le_val.1 (by decide +kernel), le_val.1 (by decide +kernel), e2, fun _ => rfl⟩
    · simp only [Bool.or_eq_true, not_or, hz _ m1, hz _ n1] at hzero
      obtain ⟨hm0, hn0'⟩ := hzero
      set u : Vec2 (Fl f32) := v /ᵥ v.magnitude with hu
      set u' : Vec2 (Fl f32) := w /ᵥ w.magnitude with hu'
      have a1 := div_le_one' k1 m1 m2 hm0
      have a2 := div_le_one' k2 m1 m3 hm0
      have b1 := div_le_one' k3 n1 n2 hn0'
      have b2 := div_le_one' k4 n1 n3 hn0'
      have c1 := mul_le_one' a1.1 b1.1 a1.2 b1.2
      have c2 := mul_le_one' a2.1 b2.1 a2.2 b2.2
      have hdot : Fl.isNaN (Vec2.dot u u') = false := add_not_nan c1.1 c2.1
      have hcomm : Vec2.dot u' u = Vec2.dot u u' := by
        simp only [Vec2.dot]
        rw [mul_comm' u'.x, mul_comm' u'.y]
      obtain ⟨r1, r2⟩ := clamp_range (lo := -(1 : Fl f32)) (hi := 1) hdot neg_one_le_one
      obtain ⟨q1, q2⟩ := Libm.acos_range _ r1 r2
      have hzv : (v.magnitude =ᵇ 0) = false := by rw [Bool.eq_false_iff, ne_eq, hz _ m1]; exact hm0
      have hzw : (w.magnitude =ᵇ 0) = false := by rw [Bool.eq_false_iff, ne_eq, hz _ n1]; exact hn0'
      refine ⟨Libm.acos (stdClamp (Vec2.dot u u') (-1) 1), ?_, le_val.1 q1, le_val.1 q2, ?_, ?_⟩
      · unfold Vec2.absoluteAngleTo
        simp only [hv, hw, Bool.not_true, Bool.or_self, Bool.false_eq_true, ↓reduceIte, hzv, hzw]
        rfl
      · rw [← hcomm]
        unfold Vec2.absoluteAngleTo
        simp only [hv, hw, Bool.not_true, Bool.or_self, Bool.false_eq_true, ↓reduceIte, hzv, hzw]
        rfl
      · rintro ⟨z1, z2⟩
        exfalso
        apply hm0
        rw [hm]
        obtain ⟨s, k, hk, hx⟩ := finite_iff.1 k1
        obtain ⟨s', l, hl, hy⟩ := finite_iff.1 k2
        have z1 := (eq_iff.1 (eq_val.2 z1)).2.2
        have z2 := (eq_iff.1 (eq_val.2 z2)).2.2
        rw [hk0, hx] at z1
        rw [hk0, hy] at z2
        have e1 : k = 0 := by cases s <;> simpa [key, sgn] using z1
        have e2 : l = 0 := by cases s' <;> simpa [key, sgn] using z2
        rw [hx, hy]
        subst e1 e2
        simp [Fl.hypot, key, sgn]

end Ink
