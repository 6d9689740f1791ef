import Verif.Props.Wobble
/-!
# Wobble smoothing forgets: C60
-/
namespace Ink
open Scalar Arith

section Exact
noncomputable section
open XR

variable {ops ops' : List (Op XR XR)} {rs rs' : List (Response XR XR)} {m m' : StrokeModeler XR XR} {p : StrokeModelParams XR XR}
  {e e' : Event XR XR} {a a' b b' : List (Event XR XR)} {f f' : Event XR XR}

/-- The legs of a path that continues another. -/
theorem Ref.legs_append (l : List (ℂ × ℝ)) (c : ℂ × ℝ) (r : List (ℂ × ℝ)) :
    Ref.legs (l ++ c :: r) = Ref.legs (l ++ [c]) ++ Ref.legs (c :: r) := by
  induction l with
  | nil => rfl
  | cons d l ih =>
    cases l with
    | nil => rfl
    | cons d' l => simpa [Ref.legs] using ih

/-- Inputs before `c` do not count if `c` is too old itself. -/
theorem Ref.recent_append {timeout t : ℝ} (l : List (ℂ × ℝ)) (c : ℂ × ℝ) (r : List (ℂ × ℝ))
    (ho : (l ++ c :: r).Pairwise fun a b => a.2 ≤ b.2) (hc : timeout < t - c.2) :
    Ref.recent timeout t (l ++ c :: r) = Ref.recent timeout t (c :: r) := by
  unfold Ref.recent
  rw [Ref.legs_append, List.filter_append]
  have : (Ref.legs (l ++ [c])).filter (fun s => decide (t - s.time ≤ timeout)) = [] := by
    rw [List.filter_eq_nil_iff]
    intro s hs
    have hle : s.time ≤ c.2 := by
      obtain ⟨d, k, hdk⟩ : ∃ d k, l ++ [c] = d :: k := by cases l <;> simp
      have hin : (s.pos, s.time) ∈ l ++ [c] := by
        rw [hdk]
        refine List.mem_cons_of_mem _ ?_
        rw [← Ref.legs_pos d k, ← hdk]
        exact List.mem_map.2 ⟨s, hs, rfl⟩
      rw [List.mem_append, List.mem_singleton] at hin
      rcases hin with hin | hin
      · rw [List.pairwise_append] at ho
        exact ho.2.2 _ hin c (by simp)
      · rw [← hin]
    simp only [decide_eq_true_eq, not_le]
    linarith
  rw [this, List.nil_append]

/-- C60: two strokes with the same parameters, whose inputs agree from the input `c` on, with `c` more than the timeout older than the
Move that comes last: this Move is taken to be at the same place in both. (The inputs come in order of time.) -/
theorem C60_forgets_exact_partial (h : Session ops rs m) (hr : Regular ops rs) (hp : (known ops rs).params = some p)
    (h' : Session ops' rs' m') (hr' : Regular ops' rs') (hp' : (known ops' rs').params = some p) (hw : p.wobble.isEnabled = true)
    (hs : strokeOf ops rs = e :: (a ++ [f])) (hs' : strokeOf ops' rs' = e' :: (a' ++ [f']))
    (ho : (soFar e a f).Pairwise fun i j => (i.time ≤ᵇ j.time) = true)
    (ho' : (soFar e' a' f').Pairwise fun i j => (i.time ≤ᵇ j.time) = true)
    {k k' r : List (Input XR XR)} {c : Input XR XR} (hk : soFar e a f = k ++ c :: r) (hk' : soFar e' a' f' = k' ++ c :: r)
    (hf : f.input.eventType = .move) (hres : f.results ≠ none) (hres' : f'.results ≠ none)
    (hc : (p.wobble.timeout <ᵇ f.input.time - c.time) = true) :
    ∃ last last', m.lastInput = some last ∧ m'.lastInput = some last' ∧ last.input = f.input ∧ last'.input = f.input ∧
      last.correctedPosition = last'.correctedPosition := by
  have hff : f.input = f'.input := by
    have h1 := congrArg List.getLast? hk
    have h2 := congrArg List.getLast? hk'
    rw [List.getLast?_append_of_ne_nil _ (by simp)] at h1 h2
    have := h1.trans h2.symm
    rw [soFar, soFar, List.map_append, List.map_append, List.map_singleton, List.map_singleton, List.getLast?_concat,
      List.getLast?_concat] at this
    exact Option.some.inj this
  obtain ⟨P, T, lo, hi, x, z, t, w, -, -, g3, g4, g5, g6, c1, c2, c3, c4, -, g8⟩ := C30_moving_average_exact h hr hp hw hs hf ho
  obtain ⟨P', T', lo', hi', x', z', t', w', -, -, g3', g4', g5', g6', c1', c2', c3', c4', -, g8'⟩ :=
    C30_moving_average_exact h' hr' hp' hw hs' (hff ▸ hf) ho'
  obtain ⟨last, k1, k2, k3⟩ := g8 rfl hres
  obtain ⟨last', k1', k2', k3'⟩ := g8' rfl hres'
  refine ⟨last, last', k1, k1', k2, k2'.trans hff.symm, ?_⟩
  rw [g3] at g3'
  simp only [WobbleParams.mk.injEq, true_and, fin_inj] at g3'
  obtain ⟨rfl, rfl, rfl⟩ := g3'
  rw [← hff, g4] at g4'
  rw [← hff, g5] at g5'
  obtain rfl := fin_inj.1 g5'
  have hx : x = x' := by
    have := congrArg toPoint g4'
    simpa using this
  subst hx
  have hfin := soFar_finite h hr hp hs
  have hfin' := soFar_finite h' hr' hp' hs'
  have hord := pathOf_ordered hfin ho
  have hord' := pathOf_ordered hfin' ho'
  rw [hk] at hord
  rw [hk'] at hord'
  have hold : T < t - toReal c.time := by
    have hct := (finiteInput_eq (hfin c (by rw [hk]; simp))).2
    rw [g3, g5, hct, fin_sub, fin_lt] at hc
    simpa using hc
  have hw1 : w = Ref.recent T t (pathOf (c :: r)) := by
    rw [g6, hk]
    simp only [pathOf, List.map_append, List.map_cons] at hord ⊢
    exact Ref.recent_append _ _ _ hord hold
  have hw2 : w' = Ref.recent T t (pathOf (c :: r)) := by
    rw [g6', hk']
    simp only [pathOf, List.map_append, List.map_cons] at hord' ⊢
    exact Ref.recent_append _ _ _ hord' hold
  obtain rfl : w = w' := hw1.trans hw2.symm
  rw [k3, k3']
  congr 1
  by_cases h0 : Ref.totalDur w = 0
  · rw [c1 h0, c1' h0]
  · rcases le_or_gt (Ref.speed w) lo with hv | hv
    · rw [c2 h0 hv, c2' h0 hv]
    · rcases le_or_gt hi (Ref.speed w) with hv2 | hv2
      · rw [c3 h0 hv hv2, c3' h0 hv hv2]
      · rw [c4 h0 hv hv2, c4' h0 hv hv2]

section Examples
open Ex

/-- A Down at `z`, three Moves. -/
def Ex.xline (z : ℂ) : List (Input XR XR) :=
  [xin .down z 0 0.2 1 2, xin .move (pt 3.2 4.2) (1 / 30) 0.3 1.1 2.1, xin .move (pt 3.3 4.2) (2 / 30) 0.4 1.2 2.2,
   xin .move (pt 3.4 4.2) (3 / 30) 0.4 1.2 2.2]

/-- The theorem applies to two such strokes with different Downs. -/
example (z : ℂ) : ∃ rs m e a f k c r, Session (calls xparams (xline z)) rs m ∧ Regular (calls xparams (xline z)) rs ∧
    (known (calls xparams (xline z)) rs).params = some xparams ∧ xparams.wobble.isEnabled = true ∧
    strokeOf (calls xparams (xline z)) rs = e :: (a ++ [f]) ∧ (soFar e a f).Pairwise (fun i j => (i.time ≤ᵇ j.time) = true) ∧
    soFar e a f = k ++ c :: r ∧ c :: r = (xline 0).tail ∧ f.input.eventType = .move ∧ f.results ≠ none ∧
    (xparams.wobble.timeout <ᵇ f.input.time - c.time) = true := by
  have hn : ∀ {e e' : EventType} {z z' : ℂ} {t t' pr pr' tl tl' o o' : ℝ}, (t' - t) * 180 ≤ 20 →
      Near xparams (xin e z t pr tl o) (xin e' z' t' pr' tl' o') :=
    fun ht => .inr ⟨rfl, by simpa [xin, xparams] using ht⟩
  obtain ⟨rs, m, h1, h2, h3, h4, h5⟩ := exists_stroke xparams_valid (i := xin .down z 0 0.2 1 2) rfl
    ⟨isFinite_fin _, isFinite_fin _, isFinite_fin _⟩ (good_fin _) (is := (xline z).tail)
    ⟨fits_xin (by norm_num), hn (by norm_num), good_fin _, .inl rfl, fits_xin (by norm_num), hn (by norm_num), good_fin _, .inl rfl,
      fits_xin (by norm_num), hn (by norm_num), good_fin _, .inl rfl, trivial⟩ (by simp [xline])
  change Session (calls xparams (xline z)) rs m at h1
  change Regular (calls xparams (xline z)) rs at h2
  change (known (calls xparams (xline z)) rs).params = some xparams at h3
  change (strokeOf (calls xparams (xline z)) rs).map Event.input = xline z at h4
  change ∀ e ∈ strokeOf (calls xparams (xline z)) rs, e.results.isSome = true at h5
  match hl : strokeOf (calls xparams (xline z)) rs, h4, h5 with
  | [e₁, e₂, e₃, f], h4, h5 =>
    refine ⟨rs, m, e₁, [e₂, e₃], f, [xin .down z 0 0.2 1 2], _, _, h1, h2, h3, rfl, hl, ?_, ?_, rfl, ?_, ?_, ?_⟩
    · show ([e₁, e₂, e₃, f].map Event.input).Pairwise _
      rw [h4]
      simp only [xline, List.pairwise_cons, List.mem_cons, List.not_mem_nil, or_false, forall_eq_or_imp, forall_eq, xin, fin_le,
        decide_eq_true_eq, false_imp_iff, implies_true, List.Pairwise.nil, and_true]
      norm_num
    · exact h4
    · have := congrArg List.getLast? h4
      simp only [List.map_cons, List.map_nil, xline, List.getLast?_cons_cons, List.getLast?_singleton, Option.some.injEq] at this
      rw [this]; rfl
    · have := h5 f (by simp)
      intro h0; rw [h0] at this; cases this
    · have := congrArg List.getLast? h4
      simp only [List.map_cons, List.map_nil, xline, List.getLast?_cons_cons, List.getLast?_singleton, Option.some.injEq] at this
      rw [this]
      simp only [xin, xparams, fin_sub, fin_lt, decide_eq_true_eq]
      norm_num
  | [], h4, _ => simp [xline] at h4
  | [_], h4, _ => simp [xline] at h4
  | [_, _], h4, _ => simp [xline] at h4
  | [_, _, _], h4, _ => simp [xline] at h4
  | _ :: _ :: _ :: _ :: _ :: _, h4, _ => simp [xline] at h4

end Examples
end
end Exact

section Float
open Ex

/-- The pen is at 1, at `B`, and then rests at 1 for 2/3 s. -/
def Ex.trip (B : F32) : List (Op F32 F64) :=
  .resetParams params :: .update (inp .down 1 0 0) [] :: .update (inp .move B 0 (d 1 30)) [] ::
    (List.range 20).map fun k => .update (inp .move 1 0 (d (2 + k) 30)) []

/-- What is asked of it: the parameters and the last inputs, and `P` of where the last input is taken to be and of the last result. -/
def Ex.ends (ops : List (Op F32 F64)) (P : F32 → F32 → Bool) (rs : List (Response F32 F64)) (m : StrokeModeler F32 F64) : Bool :=
  decide ((known ops rs).params = some params) &&
  decide (((strokeOf ops rs).map Event.input).drop 2 = (List.range 20).map (fun k => inp .move 1 0 (d (2 + k) 30))) &&
  match m.lastInput, (resultsOf (strokeOf ops rs)).getLast? with
  | some l, some r => P l.correctedPosition.x r.position.x
  | _, _ => false

theorem Ex.ends_iff {ops : List (Op F32 F64)} {P : F32 → F32 → Bool} {rs : List (Response F32 F64)} {m : StrokeModeler F32 F64}
    (h : ends ops P rs m = true) : (known ops rs).params = some params ∧
      ((strokeOf ops rs).map Event.input).drop 2 = (List.range 20).map (fun k => inp .move 1 0 (d (2 + k) 30)) ∧
      ∃ l r, m.lastInput = some l ∧ (resultsOf (strokeOf ops rs)).getLast? = some r ∧ P l.correctedPosition.x r.position.x = true := by
  simp only [ends, Bool.and_eq_true, decide_eq_true_eq] at h
  obtain ⟨⟨h1, h2⟩, h3⟩ := h
  refine ⟨h1, h2, ?_⟩
  split at h3
  · rename_i l r hl hr
    exact ⟨l, r, hl, hr, h3⟩
  · cases h3

/-- The full C60 is false on floats, and so is C58: the wobble smoother adds to and subtracts from running sums. Both pens rest at
1 for 2/3 s, with a timeout of 0.04 s. One has been at 10^8 before: it is taken to be at 0 instead of 1, and this is where the
results settle. For the other one it is 1, up to rounding. -/
theorem C60_refuted [Libm] : ∃ (ops ops' : List (Op F32 F64)) (rs rs' : List (Response F32 F64)) (m m' : StrokeModeler F32 F64)
    (l l' : LastInput F32 F64) (r r' : Result F32 F64), Session ops rs m ∧ Session ops' rs' m' ∧
    (known ops rs).params = some params ∧ (known ops' rs').params = some params ∧
    ((strokeOf ops rs).map Event.input).drop 2 = (List.range 20).map (fun k => inp .move 1 0 (d (2 + k) 30)) ∧
    ((strokeOf ops' rs').map Event.input).drop 2 = (List.range 20).map (fun k => inp .move 1 0 (d (2 + k) 30)) ∧
    m.lastInput = some l ∧ m'.lastInput = some l' ∧
    (resultsOf (strokeOf ops rs)).getLast? = some r ∧ (resultsOf (strokeOf ops' rs')).getLast? = some r' ∧
    l.correctedPosition.x = 0 ∧ (fl 999 1000 <ᵇ l'.correctedPosition.x) = true ∧
    (r.position.x <ᵇ fl 1 1000) = true ∧ (fl 999 1000 <ᵇ r'.position.x) = true := by
  obtain ⟨rs, m, h, hP⟩ := exists_session (ops := trip 100000000)
    (P := ends (trip 100000000) fun x y => decide (x = 0) && (y <ᵇ fl 1 1000)) (by kernel_rfl)
  obtain ⟨rs', m', h', hP'⟩ := exists_session (ops := trip 1) (P := ends (trip 1) fun x y => (fl 999 1000 <ᵇ x) && (fl 999 1000 <ᵇ y)) (by kernel_rfl)
  obtain ⟨h1, h2, l, r, h3, h4, h5⟩ := ends_iff hP
  obtain ⟨h1', h2', l', r', h3', h4', h5'⟩ := ends_iff hP'
  simp only [Bool.and_eq_true, decide_eq_true_eq] at h5 h5'
  exact ⟨_, _, rs, rs', m, m', l, l', r, r', h, h', h1, h1', h2, h2', h3, h3', h4, h4', h5.1, h5'.1, h5.2, h5'.2⟩

end Float
end Ink
