import Verif.Props.Counts
import Verif.Props.Times
import Verif.IEEE.Tame
/-!
# A Move that is later than its predecessor produces a result: C15
-/
namespace Ink
open Scalar Arith

theorem stepsForAngle_ge {F D : Type} [Scalar F] [Scalar D] [Arith F D] {sp : SamplingParams F D} {a : F} {n k : ℤ}
    (h : stepsForAngle sp a n = .ok k) : n ≤ k := by
  unfold stepsForAngle at h
  split at h
  · obtain ⟨j, -, h⟩ := Outcome.bind_eq_ok.1 h
    simp only [Outcome.pure_eq, Outcome.ok.injEq] at h
    split at h <;> omega
  · simp only [Outcome.ok.injEq] at h
    omega

/-- The number of steps is at least what the output rate asks for. -/
theorem numberOfSteps_ge {F D : Type} [Scalar F] [Scalar D] [Arith F D] {tip : TipState F D} {a b : Input F D}
    {sp : SamplingParams F D} {pp : PositionModelerParams F D} {n : ℤ}
    (h : numberOfStepsBetweenInputs tip a b sp pp = .ok (.ok n)) :
    ∃ k, toInt (stdMin (ceil (widen (narrow (b.time - a.time) : F) * sp.minOutputRate)) intMaxD) = .ok k ∧ k ≤ n := by
  unfold numberOfStepsBetweenInputs at h
  obtain ⟨k, hk, h⟩ := Outcome.bind_eq_ok.1 h
  refine ⟨k, hk, ?_⟩
  dsimp only at h
  split at h
  · simp at h
  · obtain ⟨n', hn, h⟩ := Outcome.bind_eq_ok.1 h
    have := stepsForAngle_ge hn
    split at h
    · simp at h
    · simp only [Outcome.pure_eq, Outcome.ok.injEq, Except.ok.injEq] at h
      omega

/-- C15, Move, on exact numbers: a Move that is later than the accepted input before it has at least one result. -/
theorem C15_move_exact_partial {ops : List (Op XR XR)} {rs : List (Response XR XR)} {m : StrokeModeler XR XR}
    {p : StrokeModelParams XR XR} {e : Event XR XR} (h : Session ops rs m) (hr : Regular ops rs) (hp : (known ops rs).params = some p)
    (hl : XR.LoopOk p.position.loop) {a b : List (Event XR XR)} {f : Event XR XR} (hs : strokeOf ops rs = e :: (a ++ f :: b))
    (hf : f.input.eventType = .move) {out : List (Result XR XR)} (hout : f.results = some out)
    {prev : Input XR XR} (hprev : (acceptedOf (e :: a)).getLast? = some prev) (hlater : (prev.time <ᵇ f.input.time) = true) :
    out ≠ [] := by
  rintro rfl
  obtain ⟨prev', t₀, t, ts, h1, h2, h3, -, h5, -, -, h8⟩ := C18_move_times_exact h hr hp hl hs hf hout
  obtain rfl : prev = prev' := by simpa [hprev] using h1
  have : ts = [] := by simpa using h5
  have := h8 this
  rw [h2, h3, this] at hlater
  simp at hlater

namespace Fl

theorem key_pos_inf {f : Fmt} {a : Bool} (h : 0 < key (inf a : Fl f)) : a = false := by
  cases a
  · rfl
  · simp [key, sgn] at h; omega

theorem ceil_ge_one {f : Fmt} (hq : f.q + 1 ≤ f.top) (hm : 2 ^ f.q ≤ f.maxMag + 1) {x : Fl f} (h : 0 < key x) : (2 ^ f.q : ℤ) ≤ key (ceil x) := by
  cases x with
  | nan => simp [key] at h
  | inf a =>
    obtain rfl := key_pos_inf h
    change (2 ^ f.q : ℤ) ≤ key (inf false : Fl f)
    have : (2 ^ f.q : ℤ) ≤ ((f.maxMag + 1 : ℕ) : ℤ) := by exact_mod_cast hm
    exact this
  | fin a k hk =>
    cases a
    · change (2 ^ f.q : ℤ) ≤ key (mk' f false _ 1)
      rw [key_mk' _ _ _ one_pos]
      have hk0 : 0 < k := by simpa [key, sgn] using h
      have h1 : 1 ≤ (k + (2 ^ f.q - 1)) / 2 ^ f.q := by
        rw [Nat.le_div_iff_mul_le (by positivity)]
        have : 0 < 2 ^ f.q := by positivity
        omega
      have hrep : RK f ((2 ^ f.q : ℕ) : ℝ) = (2 ^ f.q : ℕ) := RK_natCast (by
        have := Fmt.rep_small (f := f) (k := 1) (e := f.q) one_lt_two_pow (by omega)
        simpa using this)
      have : RK f ((2 ^ f.q : ℕ) : ℝ) ≤ RK f (((k + (2 ^ f.q - 1)) / 2 ^ f.q * 2 ^ f.q : ℕ) / (1 : ℕ) : ℝ) := by
        apply RK_mono
        rw [Nat.cast_one, div_one]
        exact_mod_cast Nat.le_mul_of_pos_left _ h1
      rw [hrep] at this
      simpa using this
    · simp [key, sgn] at h; omega

/-- The number of steps for a positive demand is positive. -/
theorem toInt_pos {x : Fl f64} (hn : isNaN x = false) (h0 : 0 < key x) {n : ℤ} (h : toInt (stdMin (ceil x) intMaxD) = .ok n) : 1 ≤ n := by
  have hmax : key (intMaxD : Fl f64) = 2147483647 * 2 ^ 1074 := by decide +kernel
  have hmaxn : isNaN (intMaxD : Fl f64) = false := by decide +kernel
  have hc := ceil_not_nan hn
  have hc1 : (2 ^ 1074 : ℤ) ≤ key (ceil x) := ceil_ge_one (f := f64) (by decide) (by decide +kernel) h0
  have hy : (2 ^ 1074 : ℤ) ≤ key (stdMin (ceil x) intMaxD) := by
    unfold stdMin
    split
    · rw [hmax]; exact le_mul_of_one_le_left (by positivity) (by norm_num)
    · exact hc1
  generalize stdMin (ceil x) intMaxD = y at h hy
  cases y with
  | nan => simp [toInt, Scalar.trunc?, trunc?] at h
  | inf a => simp [toInt, Scalar.trunc?, trunc?] at h
  | fin a k hk =>
    have htr : Scalar.trunc? (fin a k hk : Fl f64) = some (sgn a (k / 2 ^ 1074)) := rfl
    unfold toInt at h
    rw [htr] at h
    dsimp only at h
    split_ifs at h with hif
    have h := Outcome.ok.inj h
    cases a
    · have h1 : 1 ≤ k / 2 ^ 1074 := by
        rw [Nat.le_div_iff_mul_le (by positivity), one_mul]
        have hy : (2 ^ 1074 : ℤ) ≤ (k : ℤ) := hy
        exact_mod_cast hy
      rw [← h]
      change (1 : ℤ) ≤ ((k / 2 ^ 1074 : ℕ) : ℤ)
      exact_mod_cast h1
    · exfalso
      have hy : (2 ^ 1074 : ℤ) ≤ -(k : ℤ) := hy
      have h2 : (0 : ℤ) < 2 ^ 1074 := pow_pos (by norm_num) _
      generalize (2 ^ 1074 : ℤ) = z at hy h2
      omega

variable [Libm]

/-- What the output rate asks for is positive if at least 2^-149 seconds have passed and the rate is at least 1. -/
theorem demand_pos {s t r : Fl f64} (hs : Finite s) (ht : Finite t) (hr : Finite r) (h1 : 1 ≤ num r) (h : 1 / 2 ^ 149 ≤ num t - num s) :
    Fl.isNaN (widen (narrow (t - s) : Fl f32) * r) = false ∧ 0 < key (widen (narrow (t - s) : Fl f32) * r) := by
  have d1 : Fl.isNaN (t - s) = false := sub_not_nan ht hs
  have d2 : 2 ^ 925 ≤ key (t - s) := by
    rw [key_sub ht hs]
    have e1 : (key t - key s : ℝ) = (num t - num s) * 2 ^ 1074 := by
      unfold num
      have : f64.q = 1074 := rfl
      rw [this]
      field_simp
    have e2 : RK f64 ((2 ^ 925 : ℕ) : ℝ) = (2 ^ 925 : ℕ) := RK_natCast (by decide +kernel)
    have e3 : RK f64 ((2 ^ 925 : ℕ) : ℝ) ≤ RK f64 (key t - key s : ℝ) := by
      apply RK_mono
      rw [e1]
      have : ((2 ^ 925 : ℕ) : ℝ) = 1 / 2 ^ 149 * 2 ^ 1074 := by
        push_cast
        rw [show (1074 : ℕ) = 149 + 925 from rfl, pow_add]
        field_simp
      rw [this]
      gcongr
    rw [e2] at e3
    exact_mod_cast e3
  have d3 : 0 < key (narrow (t - s) : Fl f32) := by
    change 0 < key (convert f32 (t - s))
    generalize t - s = x at d1 d2
    cases x with
    | nan => simp [isNaN] at d1
    | inf a =>
      obtain rfl := key_pos_inf (lt_of_lt_of_le (pow_pos (by norm_num) _) d2)
      decide +kernel
    | fin a k hk =>
      rw [key_convert ⟨rfl, rfl⟩]
      have e2 : RK f32 ((1 : ℕ) : ℝ) = (1 : ℕ) := RK_natCast (by decide +kernel)
      have e3 : RK f32 ((1 : ℕ) : ℝ) ≤ RK f32 (key (fin a k hk) * 2 ^ f32.q / 2 ^ f64.q : ℝ) := by
        apply RK_mono
        have : (2 : ℝ) ^ 925 ≤ key (fin a k hk) := by exact_mod_cast d2
        have hq : f64.q = 925 + f32.q := rfl
        rw [hq, pow_add, Nat.cast_one, le_div_iff₀ (by positivity), one_mul]
        gcongr
      rw [e2] at e3
      have : (0 : ℤ) < (1 : ℕ) := by norm_num
      exact lt_of_lt_of_le this e3
  generalize (narrow (t - s) : Fl f32) = y at d3
  have hk0 : key (0 : Fl f64) = 0 := by decide +kernel
  cases y with
  | nan => simp [key] at d3
  | inf a =>
    obtain rfl := key_pos_inf d3
    have hr0 : 0 < key r := by
      rw [← hk0, ← num_lt, num_zero]; linarith
    obtain ⟨b, k, hk, rfl⟩ := finite_iff.1 hr
    have hb : b = false ∧ k ≠ 0 := by cases b <;> simp [key, sgn] at hr0 ⊢ <;> omega
    obtain ⟨rfl, hk1⟩ := hb
    have : (widen (inf false : Fl f32) : Fl f64) * fin false k hk = inf false := by
      change mul (inf false) _ = _
      simp [mul, hk1]
    rw [this]
    exact ⟨rfl, by decide +kernel⟩
  | fin a k hk =>
    have hy : Finite (fin a k hk : Fl f32) := ⟨rfl, rfl⟩
    have hw := finite_widen hy
    have hpos : 0 < num (fin a k hk : Fl f32) := by
      have hk0 : key (0 : Fl f32) = 0 := by decide +kernel
      rw [← num_zero (f := f32), num_lt, hk0]; exact d3
    refine ⟨mul_not_nan hw hr, ?_⟩
    rw [← hk0, ← num_lt, num_zero, num_mul hw hr, num_widen hy]
    calc (0 : ℝ) < num (fin a k hk : Fl f32) := hpos
      _ = rd f64 (num (fin a k hk : Fl f32)) := (rd_widen hy).symm
      _ ≤ _ := rd_mono (le_mul_of_one_le_right hpos.le h1)

end Fl

/-- C15, Move, on floats (partial): if the output rate is at least 1 per second, a Move that is at least 2^-149 seconds later than the
accepted input before it has at least one result. Closer Moves may have none, see `C15_close_refuted`. -/
theorem C15_move_float_partial [Libm] {ops : List (Op (Fl f32) (Fl f64))} {rs : List (Response (Fl f32) (Fl f64))} {m m' : StrokeModeler (Fl f32) (Fl f64)}
    (hS : Session ops rs m) {p : StrokeModelParams (Fl f32) (Fl f64)} (hp : (known ops rs).params = some p)
    {i prev : Input (Fl f32) (Fl f64)} (hprev : (known ops rs).prev = some prev) {v : List (Result (Fl f32) (Fl f64))} {r : Response (Fl f32) (Fl f64)}
    (h : step m (.update i v) = .ok (m', r)) (hr : r.status = .ok) {s t rate : ℝ} (hs : Fl.val prev.time = some (s : EReal))
    (ht : Fl.val i.time = some (t : EReal)) (hrate : Fl.val p.sampling.minOutputRate = some (rate : EReal))
    (h1 : 1 ≤ rate) (hst : 1 / 2 ^ 149 ≤ t - s) :
    ∃ out, r.results = v ++ out ∧ out ≠ [] := by
  by_cases he : i.eventType = .move
  · obtain ⟨p', out, hp', ho, ⟨hd, _⟩ | ⟨last, n, _, hlast, hn, hlen⟩ | ⟨_, _, hu, _⟩⟩ := update_count h hr
    · simp [hd] at he
    · have hk := hS.known
      have e1 : p' = p := by
        rw [← hk] at hp
        have hp : m.params = some p := hp
        simpa [hp] using hp'.symm
      have e2 : last.input = prev := by
        rw [← hk] at hprev
        have hprev : m.lastInput.map (·.input) = some prev := hprev
        simpa [hlast] using hprev
      subst e1 e2
      refine ⟨out, ho, ?_⟩
      obtain ⟨k, hk, hkn⟩ := numberOfSteps_ge hn
      have fs := Fl.finite_of_isFinite (Fl.isFinite_val.2 ⟨_, hs⟩)
      have ft := Fl.finite_of_isFinite (Fl.isFinite_val.2 ⟨_, ht⟩)
      have fr := Fl.finite_of_isFinite (Fl.isFinite_val.2 ⟨_, hrate⟩)
      rw [Fl.val_num fs] at hs
      rw [Fl.val_num ft] at ht
      rw [Fl.val_num fr] at hrate
      simp only [Option.some.injEq, EReal.coe_eq_coe_iff] at hs ht hrate
      obtain ⟨g1, g2⟩ := Fl.demand_pos fs ft fr (by rw [hrate]; exact h1) (by rw [hs, ht]; exact hst)
      have := Fl.toInt_pos g1 g2 hk
      rintro rfl
      simp at hlen
      omega
    · simp [hu] at he
  · exact C15_at_least_one_partial h hr he

section Examples
open Ex
/-- A Move that is later by 10^-50 seconds succeeds and appends nothing. -/
theorem C15_close_refuted [Libm] : ∃ (ops : List (Op F32 F64)) (rs : List (Response F32 F64)) (m m' : StrokeModeler F32 F64)
    (prev i : Input F32 F64) (r : Response F32 F64), Session ops rs m ∧ (known ops rs).prev = some prev ∧
    (prev.time <ᵇ i.time) = true ∧ step m (.update i []) = .ok (m', r) ∧ r.status = .ok ∧ r.results = [] := by
  let ops : List (Op F32 F64) := [.resetParams params, .update (inp .down 0 0 0) []]
  let i : Input F32 F64 := inp .move 1 0 (d 1 (10 ^ 50))
  obtain ⟨rs, m, h, hP⟩ := exists_session (ops := ops)
    (P := fun _ m => match m.lastInput, step m (.update i []) with
      | some last, .ok (_, r) => (last.input.time <ᵇ i.time) && decide (r.status = .ok ∧ r.results = [])
      | _, _ => false) (by kernel_rfl)
  cases hl : m.lastInput with
  | none => simp [hl] at hP
  | some last =>
    cases hs : step m (.update i []) with
    | ok x =>
      rw [hs, hl] at hP
      obtain ⟨h0, hP⟩ := Bool.and_eq_true_iff.1 hP
      obtain ⟨h1, h2⟩ := of_decide_eq_true hP
      refine ⟨ops, rs, m, x.1, last.input, i, x.2, h, ?_, h0, hs, h1, h2⟩
      rw [← h.known]
      change m.lastInput.map (·.input) = _
      rw [hl]; rfl
    | ub w => simp [hl, hs] at hP
    | diverge => simp [hl, hs] at hP

/-- A Move 1/100 s after the Down has results. -/
example [Libm] : ∃ rs m, Session [.resetParams params, .update (inp .down 0 0 0) [], .update (inp .move 4 0 (d 1 100)) []] rs m ∧
    decide (∀ r ∈ rs.getLast?, r.status = .ok ∧ r.results.length = 2) = true := exists_session (by kernel_rfl)
end Examples

end Ink
