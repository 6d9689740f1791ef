import Verif.Exact.Foot
import Verif.Exact.Told
import Verif.Exact.Angle
/-!
# Where the results of an input come from, on exact numbers
-/
namespace Ink
open Scalar Arith XR
noncomputable section
open Classical

namespace XR

/-! ### orientations -/

theorem interpAngle_arc (a b : ℝ) {u : ℝ} (h0 : 0 ≤ u) (h1 : u ≤ 1) :
    ∃ θ, interpAngle (fin a) (fin b) (fin u) = .ok (fin θ) ∧ Ref.OnArc a b u θ := by
  obtain ⟨x, y, z, ⟨hx0, hx1, i, hx⟩, ⟨hy0, hy1, j, hy⟩, hz, ⟨hz0, hz1, k, hzk⟩⟩ := interpAngle_fin a b u
  rw [clamp_of_mem h0 h1] at hzk
  refine ⟨z, hz, hz0, hz1, ?_⟩
  obtain ⟨m, hm, hle⟩ : ∃ m : ℤ, arcEnd x y = y + m * (2 * Real.pi) ∧ |arcEnd x y - x| ≤ Real.pi := by
    have := Real.pi_pos
    unfold arcEnd
    split
    · exact ⟨1, by push_cast; ring, by rw [abs_le]; constructor <;> linarith⟩
    · split
      · exact ⟨-1, by push_cast; ring, by rw [abs_le]; constructor <;> linarith⟩
      · exact ⟨0, by push_cast; ring, by rw [abs_le]; constructor <;> linarith⟩
  refine ⟨arcEnd x y - x, j + m - i, i + k, hle, ?_, ?_⟩
  · rw [hm, hy, hx]; push_cast; ring
  · rw [hzk, hx]; push_cast; ring

theorem onArc_self {a θ : ℝ} {u : ℝ} (h : Ref.OnArc a a u θ) : Ref.OnArc a a 0 θ := by
  obtain ⟨δ, m, n, h2, h3, h4⟩ := h.eq
  have hpi := Real.pi_pos
  have hδ : δ = m * (2 * Real.pi) := by linarith
  have hm : m = 0 := by
    by_contra hm
    have h5 : (1 : ℝ) ≤ |(m : ℝ)| := by exact_mod_cast Int.one_le_abs hm
    rw [hδ, abs_mul, abs_of_pos (by linarith : 0 < 2 * Real.pi)] at h2
    nlinarith
  rw [hm] at hδ
  have hδ : δ = 0 := by simpa using hδ
  exact ⟨h.nonneg, h.le, 0, 0, n, by simpa using hpi.le, by simp, by rw [h4, hδ]; ring⟩

theorem interpAngle_self {θ c : ℝ} (h0 : 0 ≤ θ) (h1 : θ ≤ 2 * Real.pi) : interpAngle (fin θ) (fin θ) (fin c) = .ok (fin θ) := by
  obtain ⟨x, hx, _, hx1⟩ := normalizeAngle_fin θ
  rw [hx1 h0 h1] at hx
  have := Real.pi_pos
  unfold interpAngle
  simp only [hx, Outcome.ok_bind, fin_sub, sub_self, widen_eq, pi_eq, fin_neg, fin_lt]
  rw [if_neg (by simp [this.le]), if_neg (by simp [this.le]), interp_fin, sub_self, zero_mul, add_zero, hx]

/-! ### the answer of Query -/

/-- The kinematic fields of a sample, as real numbers. -/
theorem getD_map_of_lt {α β : Type} (f : α → β) (l : List α) (k : ℕ) (d : β) (h : k < l.length) : (l.map f).getD k d = f l[k] := by
  simp [h]

/-- A window of raw samples. -/
structure Win (s : StylusModeler XR XR) (tips : List Ref.Tip) (ins : List (Input XR XR)) : Prop where
  kin : s.state.inputs.map Result.kin = tips.map tip
  pressure : s.state.inputs.map (·.pressure) = ins.map (·.pressure)
  tilt : s.state.inputs.map (·.tilt) = ins.map (·.tilt)
  orientation : s.state.inputs.map (·.orientation) = ins.map (·.orientation)

/-- Interpolation of one of the optional fields. -/
theorem field_along {raw : List XR} {l : List ℝ} (h : raw = l.map fin) (hn : ∀ x ∈ l, 0 ≤ x) {k : ℕ} {u : ℝ} (ho : Ref.On l k u) {a b : XR}
    (ha : raw[k]? = some a) (hb : raw[k + 1]? = some b) :
    (if a <ᵇ 0 || b <ᵇ 0 then -1 else interp a b (fin u)) = fin (Ref.along l k u) := by
  have h1 : k < l.length := by have := ho.lt; omega
  have h2 := ho.lt
  subst h
  simp only [List.getElem?_map, List.getElem?_eq_getElem h1, List.getElem?_eq_getElem h2, Option.map_some, Option.some.injEq] at ha hb
  have n1 := hn l[k] (List.getElem_mem h1)
  have n2 := hn l[k + 1] (List.getElem_mem h2)
  rw [← ha, ← hb]
  simp [not_lt.2 n1, not_lt.2 n2, Ref.along, h1, h2, Ref.lerp, clamp_of_mem ho.nonneg ho.le, mul_comm]

theorem query_foot {s : StylusModeler XR XR} {tips : List Ref.Tip} {ins : List (Input XR XR)} (hw : Win s tips ins)
    (hne : s.state.inputs ≠ []) (q : Ref.Tip) (t : ℝ) {a : Result XR XR}
    (h : s.query (tip q) (getStrokeNormal (tip q) (fin t)) = .ok a) :
    ∃ foot, Ref.Foot s.params.useStrokeNormalProjection (tips.map Ref.Tip.pos) q.pos q.acc (Ref.normal q t) foot ∧
      a.kin = tip (Ref.footSample tips q foot) ∧
      (∀ l : List ℝ, s.state.unknownPressure = false → ins.map (·.pressure) = l.map fin → (∀ x ∈ l, 0 ≤ x) →
        a.pressure = fin (Ref.value (tips.map Ref.Tip.pos) q.pos foot l)) ∧
      (∀ l : List ℝ, s.state.unknownTilt = false → ins.map (·.tilt) = l.map fin → (∀ x ∈ l, 0 ≤ x) →
        a.tilt = fin (Ref.value (tips.map Ref.Tip.pos) q.pos foot l)) ∧
      (∀ l : List ℝ, s.state.unknownOrientation = false → ins.map (·.orientation) = l.map fin → (∀ x ∈ l, 0 ≤ x) →
        ∃ θ, a.orientation = fin θ ∧ 0 ≤ θ ∧
          ∀ c, 0 ≤ c → c ≤ 1 → ∃ η, interpAngle a.orientation a.orientation (fin c) = .ok (fin η) ∧
            Ref.arcValue (tips.map Ref.Tip.pos) q.pos foot l η) := by
  rcases StylusModeler.query_ok h with ⟨h0, _⟩ | ⟨_, b, r, hb, hr, rfl⟩
  · exact absurd h0 hne
  have hpos : s.state.inputs.map (·.position) = (tips.map Ref.Tip.pos).map V := by
    have := congrArg (List.map TipState.position) hw.kin
    simpa [List.map_map, Function.comp_def, Result.kin, tip] using this
  have hlen : s.state.inputs.length = tips.length := by have := congrArg List.length hw.kin; simpa using this
  obtain ⟨hfoot, hbs⟩ := projection_foot hpos q t hb
  refine ⟨b.map footOf, hfoot, ?_⟩
  cases b with
  | some b =>
    obtain ⟨hrat, hon⟩ := hbs b rfl
    set k := (footOf b).1 with hk
    set u := (footOf b).2 with hu
    have hk' : b.segmentIndex = k := rfl
    have hlt : k + 1 < tips.length := by simpa using hon.lt
    have hlt1 : k + 1 < s.state.inputs.length := by omega
    have hlt0 : k < s.state.inputs.length := by omega
    have hfo : footOf b = (k, u) := rfl
    unfold StylusModeler.projectedResult at hr
    dsimp only at hr
    rw [hk', hrat] at hr
    simp only [List.getElem?_eq_getElem hlt0, List.getElem?_eq_getElem hlt1] at hr
    set A := s.state.inputs[k] with hA
    set B := s.state.inputs[k + 1] with hB
    obtain ⟨o, ho, rfl⟩ := interpResult_ok hr
    have hkA : A.kin = tip tips[k] := by
      have := congrArg (fun l => l[k]?) hw.kin
      simpa [List.getElem?_map, hlt0, (by omega : k < tips.length)] using this
    have hkB : B.kin = tip tips[k + 1] := by
      have := congrArg (fun l => l[k + 1]?) hw.kin
      simpa [List.getElem?_map, hlt1, hlt] using this
    have hkin := interpResultWith_kin hkA hkB u o
    rw [clamp_of_mem hon.nonneg hon.le] at hkin
    have hkt : k < tips.length := by omega
    have field : ∀ (f : Result XR XR → XR) (g : Input XR XR → XR), s.state.inputs.map f = ins.map g → ∀ l : List ℝ, ins.map g = l.map fin →
        (∀ x ∈ l, 0 ≤ x) → (if f A <ᵇ 0 || f B <ᵇ 0 then -1 else interp (f A) (f B) (fin u)) = fin (Ref.along l k u) := by
      intro f g h1 l h2 h3
      have hl : l.length = s.state.inputs.length := by
        have e1 := congrArg List.length h1; have e2 := congrArg List.length h2; simp only [List.length_map] at e1 e2; omega
      refine field_along (raw := s.state.inputs.map f) (h1.trans h2) h3 ⟨by omega, hon.nonneg, hon.le⟩ ?_ ?_
      · simp [hlt0, ← hA]
      · simp [hlt1, ← hB]
    refine ⟨?_, ?_, ?_, ?_⟩
    · rw [Option.map_some, hfo]
      have e1 : (StylusModeler.strip s.state (tip q) (interpResultWith A B (fin u) o)).kin =
          { (interpResultWith A B (fin u) o).kin with time := fin q.time } := rfl
      rw [e1, hkin]
      simp [tip, Ref.footSample, Ref.value, Ref.along, hlt, hkt]
    · intro l hf hl hn
      rw [Option.map_some, hfo]
      simp only [StylusModeler.strip, hf, Bool.false_eq_true, ↓reduceIte]
      exact field (·.pressure) (·.pressure) hw.pressure l hl hn
    · intro l hf hl hn
      rw [Option.map_some, hfo]
      simp only [StylusModeler.strip, hf, Bool.false_eq_true, ↓reduceIte]
      exact field (·.tilt) (·.tilt) hw.tilt l hl hn
    · intro l hf hl hn
      rw [Option.map_some, hfo]
      have hll : l.length = s.state.inputs.length := by
        have e1 := congrArg List.length hw.orientation; have e2 := congrArg List.length hl
        simp only [List.length_map] at e1 e2; omega
      have hlk : k < l.length := by omega
      have hlk1 : k + 1 < l.length := by omega
      have eA : A.orientation = fin l[k] := by
        have := congrArg (fun l => l[k]?) (hw.orientation.trans hl)
        simpa [List.getElem?_map, hlt0, hlk] using this
      have eB : B.orientation = fin l[k + 1] := by
        have := congrArg (fun l => l[k + 1]?) (hw.orientation.trans hl)
        simpa [List.getElem?_map, hlt1, hlk1] using this
      have nA := hn l[k] (List.getElem_mem hlk)
      have nB := hn l[k + 1] (List.getElem_mem hlk1)
      unfold interpOrientation at ho
      rw [eA, eB] at ho
      obtain ⟨θ, hθ, harc⟩ := interpAngle_arc l[k] l[k + 1] hon.nonneg hon.le
      simp only [lit0, fin_lt, not_lt.2 nA, not_lt.2 nB, decide_false, Bool.or_false, Bool.false_eq_true, ↓reduceIte] at ho
      rw [hθ] at ho
      simp only [Outcome.ok.injEq] at ho
      have eo : (StylusModeler.strip s.state (tip q) (interpResultWith A B (fin u) o)).orientation = fin θ := by
        simp only [StylusModeler.strip, hf, Bool.false_eq_true, ↓reduceIte]
        exact ho.symm
      refine ⟨θ, eo, harc.nonneg, fun c h0 h1 => ⟨θ, ?_, ?_⟩⟩
      · rw [eo]; exact interpAngle_self harc.nonneg harc.le
      · have e1 : l.getD k 0 = l[k] := by simp [hlk]
        have e2 : l.getD (k + 1) 0 = l[k + 1] := by simp [hlk1]
        simp only [Ref.arcValue, e1, e2]
        exact harc
  | none =>
    unfold StylusModeler.projectedResult at hr
    obtain ⟨A, tl, hAt⟩ := List.exists_cons_of_ne_nil hne
    obtain ⟨B, hB⟩ : ∃ B, s.state.inputs.getLast? = some B := by
      rw [← Option.isSome_iff_exists]; simpa using hne
    have hA : s.state.inputs.head? = some A := by rw [hAt]; rfl
    simp only [hA, hB, Outcome.ok.injEq] at hr
    have hhead : ∀ {β : Type} (f : Result XR XR → β) (l : List β), s.state.inputs.map f = l → ∀ d, l.headD d = f A := by
      intro β f l h d; rw [← h, hAt]; rfl
    have hlast : ∀ {β : Type} (f : Result XR XR → β) (l : List β), s.state.inputs.map f = l → ∀ d, l.getLastD d = f B := by
      intro β f l h d; rw [← h, List.getLastD_eq_getLast?, List.getLast?_map, hB]; rfl
    have hnil : tips ≠ [] := by rintro rfl; rw [List.length_nil, List.length_eq_zero_iff] at hlen; exact hne hlen
    -- all fields come from the same sample
    obtain ⟨ta, tl', hta⟩ := List.exists_cons_of_ne_nil hnil
    obtain ⟨tb, htb⟩ : ∃ tb, tips.getLast? = some tb := by
      rw [← Option.isSome_iff_exists]; simpa using hnil
    have hkA : A.kin = tip ta := by
      have := congrArg List.head? hw.kin; rw [List.head?_map, hA, List.head?_map, hta] at this; simpa using this
    have hkB : B.kin = tip tb := by
      have := congrArg List.getLast? hw.kin; rw [List.getLast?_map, hB, List.getLast?_map, htb] at this; simpa using this
    have hpA : A.position = V ta.pos := congrArg TipState.position hkA
    have hpB : B.position = V tb.pos := congrArg TipState.position hkB
    have hcond : (distance A.position (tip q).position <ᵇ distance B.position (tip q).position) =
        decide (‖(tips.map Ref.Tip.pos).headD 0 - q.pos‖ < ‖(tips.map Ref.Tip.pos).getLastD 0 - q.pos‖) := by
      have e1 : (tips.map Ref.Tip.pos).headD 0 = ta.pos := by rw [hta]; rfl
      have e2 : (tips.map Ref.Tip.pos).getLastD 0 = tb.pos := by
        rw [List.getLastD_eq_getLast?, List.getLast?_map, htb]; rfl
      rw [e1, e2, hpA, hpB, norm_sub_rev ta.pos, norm_sub_rev tb.pos]
      simp [tip]
    rw [hcond] at hr
    have eh : ∀ {β : Type} (f : Ref.Tip → β) (d : β), (tips.map f).headD d = f ta := by intro β f d; rw [hta]; rfl
    have el : ∀ {β : Type} (f : Ref.Tip → β) (d : β), (tips.map f).getLastD d = f tb := by
      intro β f d; rw [List.getLastD_eq_getLast?, List.getLast?_map, htb]; rfl
    have field : ∀ (f : Result XR XR → XR) (g : Input XR XR → XR), s.state.inputs.map f = ins.map g → ∀ l : List ℝ, ins.map g = l.map fin →
        (∀ x ∈ l, 0 ≤ x) → f r = fin (Ref.value (tips.map Ref.Tip.pos) q.pos none l) ∧
          0 ≤ Ref.value (tips.map Ref.Tip.pos) q.pos none l := by
      intro f g h1 l h2 h3
      have hl0 : l ≠ [] := by rintro rfl; rw [h2, List.map_nil, List.map_eq_nil_iff] at h1; exact hne h1
      have e1 : f A = fin (l.headD 0) := by
        have := hhead f _ (h1.trans h2) (fin 0)
        rw [← this]; cases l <;> simp
      have e2 : f B = fin (l.getLastD 0) := by
        have := hlast f _ (h1.trans h2) (fin 0)
        rw [← this, List.getLastD_eq_getLast?, List.getLastD_eq_getLast?, List.getLast?_map]
        cases l.getLast? <;> simp
      have m1 : l.headD 0 ∈ l := by cases l with
        | nil => exact absurd rfl hl0
        | cons a l => simp
      have m2 : l.getLastD 0 ∈ l := by
        rw [List.getLastD_eq_getLast?, List.getLast?_eq_getLast_of_ne_nil hl0]; exact List.getLast_mem hl0
      rw [← hr]
      unfold Ref.value
      dsimp only
      by_cases hc : ‖(tips.map Ref.Tip.pos).headD 0 - q.pos‖ < ‖(tips.map Ref.Tip.pos).getLastD 0 - q.pos‖
      · simp only [hc, decide_true, ↓reduceIte]; exact ⟨e1, h3 _ m1⟩
      · simp only [hc, decide_false, Bool.false_eq_true, ↓reduceIte]; exact ⟨e2, h3 _ m2⟩
    refine ⟨?_, ?_, ?_, ?_⟩
    · have e1 : (StylusModeler.strip s.state (tip q) r).kin = { r.kin with time := fin q.time } := rfl
      rw [e1, ← hr]
      unfold Ref.footSample Ref.value
      dsimp only [Option.map_none]
      by_cases hc : ‖(tips.map Ref.Tip.pos).headD 0 - q.pos‖ < ‖(tips.map Ref.Tip.pos).getLastD 0 - q.pos‖
      · simp only [hc, decide_true, ↓reduceIte]; rw [hkA]; simp only [eh]; rfl
      · simp only [hc, decide_false, Bool.false_eq_true, ↓reduceIte]; rw [hkB]; simp only [el]; rfl
    · intro l hf hl hn
      simp only [StylusModeler.strip, hf, Bool.false_eq_true, ↓reduceIte]
      exact (field (·.pressure) (·.pressure) hw.pressure l hl hn).1
    · intro l hf hl hn
      simp only [StylusModeler.strip, hf, Bool.false_eq_true, ↓reduceIte]
      exact (field (·.tilt) (·.tilt) hw.tilt l hl hn).1
    · intro l hf hl hn
      obtain ⟨f1, f2⟩ := field (·.orientation) (·.orientation) hw.orientation l hl hn
      have eo : (StylusModeler.strip s.state (tip q) r).orientation = r.orientation := by
        simp only [StylusModeler.strip, hf, Bool.false_eq_true, ↓reduceIte]
      refine ⟨_, eo.trans f1, f2, fun c h0 h1 => ?_⟩
      rw [eo, f1]
      obtain ⟨η, hη, harc⟩ := interpAngle_arc (Ref.value (tips.map Ref.Tip.pos) q.pos none l)
        (Ref.value (tips.map Ref.Tip.pos) q.pos none l) h0 h1
      exact ⟨η, hη, onArc_self harc⟩

/-! ### the results of an input -/

/-- The raw samples held by the stylus state modeler leave out the first `j` of those taken at the times `times`. -/
structure Held (p : StylusParams XR) (times : List ℝ) (j : ℕ) : Prop where
  closest : p.useStrokeNormalProjection = false → j = times.length - p.maxInputSamples.toNat
  enough : p.useStrokeNormalProjection = true → min times.length p.minInputSamples.toNat ≤ times.length - j
  needed : p.useStrokeNormalProjection = true → ∀ t, times[j + 1]? = some t → p.minInputSamples < ((times.length - j : ℕ) : ℤ) →
    (p.minSampleDuration <ᵇ fin (times.getLastD 0 - t)) = false
  held : p.useStrokeNormalProjection = true → (times.drop j).map fin = heldTimes p (times.map fin)

/-- How the result `r` comes from the tip state `q`, where `win` are the raw samples held, `ins` the inputs they come from, `all` the
inputs of the stroke so far, `foot` the place of the projection and `c` the part of the modeled state, which depends on the results
`hist` before (C35 tells how). The time before is `t`. -/
structure Explains (nm : Bool) (lp : LoopParams XR XR) (win : List Ref.Tip) (ins all : List (Input XR XR)) (hist : List (Result XR XR))
    (t : ℝ) (q : Ref.Tip) (r : Result XR XR) (foot : Option (ℕ × ℝ)) (c : ℝ) : Prop where
  proj : Ref.Foot nm (win.map Ref.Tip.pos) q.pos q.acc (Ref.normal q t) foot
  nonneg : 0 ≤ c
  le : c ≤ 1
  off : lp.isEnabled = false → c = 1
  ratio : (loopAfter lp hist).getInterpolationValue = fin c
  kin : r.kin = tip (Ref.between (Ref.footSample win q foot) q c)
  pressure : (∀ i ∈ all, ∃ v, 0 ≤ v ∧ i.pressure = fin v) →
    r.pressure = fin (Ref.value (win.map Ref.Tip.pos) q.pos foot (ins.map fun i => toReal i.pressure))
  tilt : (∀ i ∈ all, ∃ v, 0 ≤ v ∧ i.tilt = fin v) →
    r.tilt = fin (Ref.value (win.map Ref.Tip.pos) q.pos foot (ins.map fun i => toReal i.tilt))
  orientation : (∀ i ∈ all, ∃ v, 0 ≤ v ∧ i.orientation = fin v) →
    ∃ θ, r.orientation = fin θ ∧ Ref.arcValue (win.map Ref.Tip.pos) q.pos foot (ins.map fun i => toReal i.orientation) θ
  lacking : ((∃ i ∈ all, isUnknown i.pressure = true) → r.pressure = -1) ∧ ((∃ i ∈ all, isUnknown i.tilt = true) → r.tilt = -1) ∧
    ((∃ i ∈ all, isUnknown i.orientation = true) → r.orientation = -1)

/-- No stylus values are reported for this stroke so far. -/
def Bare (all : List (Input XR XR)) : Prop :=
  (∃ i ∈ all, isUnknown i.pressure = true) ∧ (∃ i ∈ all, isUnknown i.tilt = true) ∧ ∃ i ∈ all, isUnknown i.orientation = true

/-- The result is the tip state. -/
def bareResult (q : Ref.Tip) : Result XR XR :=
  { position := V q.pos, velocity := V q.vel, acceleration := V q.acc, time := fin q.time, pressure := -1, tilt := -1, orientation := -1 }

/-- How the results come from the tip states, `hist` being the results before and `t` the time before. -/
inductive Explained (nm : Bool) (lp : LoopParams XR XR) (win : List Ref.Tip) (ins all : List (Input XR XR)) :
    List (Result XR XR) → ℝ → List Ref.Tip → List (Result XR XR) → Prop
  | nil (hist : List (Result XR XR)) (t : ℝ) : Explained nm lp win ins all hist t [] []
  | cons {hist : List (Result XR XR)} {t : ℝ} {q : Ref.Tip} {r : Result XR XR} {qs : List Ref.Tip} {out : List (Result XR XR)}
      (h : (nm = false ∧ Bare all → r = bareResult q) ∧
        (¬(nm = false ∧ Bare all) → ∃ foot c, Explains nm lp win ins all hist t q r foot c))
      (ht : Explained nm lp win ins all (hist ++ [r]) q.time qs out) : Explained nm lp win ins all hist t (q :: qs) (r :: out)

theorem explains {s : StylusModeler XR XR} {win : List Ref.Tip} {ins all : List (Input XR XR)} (hw : Win s win ins)
    (hne : s.state.inputs ≠ []) (hsub : ∀ i ∈ ins, i ∈ all)
    (hp : s.state.unknownPressure = all.any fun i => isUnknown i.pressure)
    (ht : s.state.unknownTilt = all.any fun i => isUnknown i.tilt)
    (ho : s.state.unknownOrientation = all.any fun i => isUnknown i.orientation)
    {q : Ref.Tip} {t c : ℝ} {a r : Result XR XR} {lp : LoopParams XR XR} {hist : List (Result XR XR)}
    (hq : s.query (tip q) (getStrokeNormal (tip q) (fin t)) = .ok a) (hc : (loopAfter lp hist).getInterpolationValue = fin c)
    (h0 : 0 ≤ c) (h1 : c ≤ 1) (hoff : lp.isEnabled = false → c = 1)
    (hr : interpResult a (makeResultFromTipState (tip q) a) (fin c) = .ok r) :
    ∃ foot c, Explains s.params.useStrokeNormalProjection lp win ins all hist t q r foot c := by
  obtain ⟨foot, hf, hk, f1, f2, f3⟩ := query_foot hw hne q t hq
  obtain ⟨o, hor, rfl⟩ := interpResult_ok hr
  have hb : (makeResultFromTipState (tip q) a).kin = tip q := rfl
  have key : ∀ g : Input XR XR → XR, (∀ i ∈ all, ∃ v, 0 ≤ v ∧ g i = fin v) →
      ins.map g = (ins.map fun i => toReal (g i)).map fin ∧ (∀ x ∈ ins.map fun i => toReal (g i), 0 ≤ x) ∧
      (all.any fun i => isUnknown (g i)) = false := by
    intro g hg
    refine ⟨?_, ?_, ?_⟩
    · rw [List.map_map]
      refine List.map_congr_left fun i hi => ?_
      obtain ⟨v, _, hv⟩ := hg i (hsub i hi)
      simp [hv, toReal]
    · intro x hx
      obtain ⟨i, hi, rfl⟩ := List.mem_map.1 hx
      obtain ⟨v, h0, hv⟩ := hg i (hsub i hi)
      simpa [hv, toReal] using h0
    · rw [List.any_eq_false]
      intro i hi
      obtain ⟨v, h0, hv⟩ := hg i hi
      simp [isUnknown, hv, h0]
  have self : ∀ v : ℝ, 0 ≤ v → (if fin v <ᵇ (0 : XR) || fin v <ᵇ (0 : XR) then -1 else interp (fin v) (fin v) (fin c)) = fin v := by
    intro v hv
    simp [not_lt.2 hv]
  have field : ∀ (l : List ℝ), (∀ x ∈ l, 0 ≤ x) → 0 ≤ Ref.value (win.map Ref.Tip.pos) q.pos foot l := by
    intro l hl
    cases hfo : foot with
    | none =>
      unfold Ref.value
      dsimp only
      split
      · cases l with
        | nil => exact le_rfl
        | cons a l => exact hl _ (by simp)
      · rw [List.getLastD_eq_getLast?]
        cases hg : l.getLast? with
        | none => exact le_rfl
        | some b => exact hl _ (List.mem_of_getLast? hg)
    | some ku =>
      obtain ⟨k, u⟩ := ku
      rw [hfo] at hf
      have hon := hf.on
      have pos : ∀ i, 0 ≤ l.getD i 0 := by
        intro i
        rw [List.getD_eq_getElem?_getD]
        cases hg : l[i]? with
        | none => exact le_rfl
        | some b => exact hl _ (List.mem_of_getElem? hg)
      exact Ref.lerp_mem (convex_Ici (0 : ℝ)) (pos k) (pos (k + 1)) hon.nonneg hon.le
  refine ⟨foot, c, hf, h0, h1, hoff, hc, ?_, ?_, ?_, ?_, ?_⟩
  · rw [interpResultWith_kin hk hb, clamp_of_mem h0 h1]
    rfl
  · intro h
    obtain ⟨k1, k2, k3⟩ := key (·.pressure) h
    have := f1 _ (hp.trans k3) k1 k2
    have e := self _ (field _ k2)
    rw [← this] at e
    rw [← this]
    exact e
  · intro h
    obtain ⟨k1, k2, k3⟩ := key (·.tilt) h
    have := f2 _ (ht.trans k3) k1 k2
    have e := self _ (field _ k2)
    rw [← this] at e
    rw [← this]
    exact e
  · intro h
    obtain ⟨k1, k2, k3⟩ := key (·.orientation) h
    obtain ⟨θ, e, hθ, hη⟩ := f3 _ (ho.trans k3) k1 k2
    obtain ⟨η, h3, h4⟩ := hη c h0 h1
    refine ⟨η, ?_, h4⟩
    unfold interpOrientation at hor
    simp only [makeResultFromTipState, e, lit0, fin_lt, not_lt.2 hθ, decide_false, Bool.or_self, Bool.false_eq_true, ↓reduceIte] at hor
    rw [e, hor] at h3
    simpa [interpResultWith] using h3
  · have hneg : ((-1 : XR) <ᵇ (0 : XR)) = true := by
      rw [show (-1 : XR) = fin (-1) by rw [lit1, fin_neg], lit0, fin_lt]; simp
    obtain ⟨rr, e⟩ : ∃ rr, a = StylusModeler.strip s.state (tip q) rr := by
      rcases StylusModeler.query_ok hq with ⟨he, _⟩ | ⟨_, _, rr, _, _, e⟩
      · exact absurd he hne
      · exact ⟨rr, e⟩
    have any : ∀ g : Input XR XR → XR, (∃ i ∈ all, isUnknown (g i) = true) → (all.any fun i => isUnknown (g i)) = true := by
      rintro g ⟨i, hi, hu⟩
      exact List.any_eq_true.2 ⟨i, hi, hu⟩
    refine ⟨fun h => ?_, fun h => ?_, fun h => ?_⟩
    · have : a.pressure = -1 := by rw [e]; simp only [StylusModeler.strip, hp.trans (any (·.pressure) h), ↓reduceIte]
      simp only [interpResultWith, this, hneg, Bool.true_or, ↓reduceIte]
    · have : a.tilt = -1 := by rw [e]; simp only [StylusModeler.strip, ht.trans (any (·.tilt) h), ↓reduceIte]
      simp only [interpResultWith, this, hneg, Bool.true_or, ↓reduceIte]
    · have : a.orientation = -1 := by rw [e]; simp only [StylusModeler.strip, ho.trans (any (·.orientation) h), ↓reduceIte]
      unfold interpOrientation at hor
      simp only [this, hneg, Bool.true_or, ↓reduceIte, Outcome.ok.injEq] at hor
      exact hor.symm


theorem Modeled.explained {s : StylusModeler XR XR} {win : List Ref.Tip} {ins all : List (Input XR XR)}
    (hw : ¬(s.params.useStrokeNormalProjection = false ∧ Bare all) → Win s win ins ∧ s.state.inputs ≠ [])
    (hclear : s.params.useStrokeNormalProjection = false ∧ Bare all → s.state.inputs = [])
    (hsub : ∀ i ∈ ins, i ∈ all)
    (hp : s.state.unknownPressure = all.any fun i => isUnknown i.pressure)
    (ht : s.state.unknownTilt = all.any fun i => isUnknown i.tilt)
    (ho : s.state.unknownOrientation = all.any fun i => isUnknown i.orientation) {lp : LoopParams XR XR}
    (hon : lp.isEnabled = true → s.params.useStrokeNormalProjection = true) {hist : List (Result XR XR)}
    {t : ℝ} {tips : List Ref.Tip} {out : List (Result XR XR)} (h : Modeled s lp hist t tips out) :
    Explained s.params.useStrokeNormalProjection lp win ins all hist t tips out := by
  induction h with
  | nil hist t => exact .nil hist t
  | @cons hist t c q a r qs out hq hc h0 h1 hoff hr h ih =>
    refine .cons ⟨fun hb => ?_, fun hb => ?_⟩ ih
    · have he := hclear hb
      have hof : lp.isEnabled = false := by
        cases hlp : lp.isEnabled with
        | false => rfl
        | true => have := hon hlp; rw [hb.1] at this; exact absurd this (by simp)
      obtain rfl := hoff hof
      rcases StylusModeler.query_ok hq with ⟨_, rfl⟩ | ⟨hne, _⟩
      · obtain ⟨o, hor, rfl⟩ := interpResult_ok hr
        have hneg : ((-1 : XR) <ᵇ (0 : XR)) = true := by
          rw [show (-1 : XR) = fin (-1) by rw [lit1, fin_neg], lit0, fin_lt]; simp
        have e1 : o = -1 := by
          unfold interpOrientation at hor
          simp only [StylusModeler.emptyResult, makeResultFromTipState, hneg, Bool.or_self, ↓reduceIte, Outcome.ok.injEq] at hor
          exact hor.symm
        have hk := interpResultWith_kin (a := (StylusModeler.emptyResult : Result XR XR)) (b := makeResultFromTipState (tip q) StylusModeler.emptyResult)
          (qa := ⟨0, 0, 0, 0⟩) (qb := q)
          (by simp [StylusModeler.emptyResult, Result.kin, tip]) rfl 1 o
        rw [clamp_of_mem zero_le_one le_rfl] at hk
        have e2 : Ref.lerp (0 : ℂ) q.pos 1 = q.pos := by simp [Ref.lerp]
        simp only [Result.kin, tip, TipState.mk.injEq, Ref.lerp, sub_zero, one_smul, zero_add, smul_eq_mul, one_mul] at hk
        obtain ⟨k1, k2, k3, k4⟩ := hk
        have ext : ∀ r : Result XR XR, r.position = V q.pos → r.velocity = V q.vel → r.acceleration = V q.acc → r.time = fin q.time →
            r.pressure = -1 → r.tilt = -1 → r.orientation = -1 → r = bareResult q := by
          rintro ⟨⟩ rfl rfl rfl rfl rfl rfl rfl; rfl
        refine ext _ k1 k2 k3 k4 ?_ ?_ e1
        · simp only [interpResultWith, StylusModeler.emptyResult, hneg, Bool.true_or, ↓reduceIte]
        · simp only [interpResultWith, StylusModeler.emptyResult, hneg, Bool.true_or, ↓reduceIte]
      · exact absurd he hne
    · obtain ⟨h2, h3⟩ := hw hb
      exact explains h2 h3 hsub hp ht ho hq hc h0 h1 hoff hr

theorem course_explained {p : StrokeModelParams XR XR} {P : Ref.Params} (hr : Realizes p P) (hv : P.Valid) {e : Event XR XR}
    {a b : List (Event XR XR)} {f : Event XR XR} {m : StrokeModeler XR XR} (h : Course p (e :: a ++ f :: b) m)
    (hl : LoopOk p.position.loop) {out : List (Result XR XR)} (hf : f.results = some out) :
    ∃ tips j, (Ref.advance P (state P e a) (touch f.input)).2 = some tips ∧
      Held p.stylus ((polyline P e (a ++ [f])).map Ref.Tip.time) j ∧
      Explained p.stylus.useStrokeNormalProjection p.position.loop ((polyline P e (a ++ [f])).drop j)
        (((e :: a ++ [f]).map Event.input).drop j) ((e :: a ++ [f]).map Event.input) (resultsOf a) (before (state P e a) f.input) tips out := by
  obtain ⟨m', h', ht⟩ := course_told hr hv h
  have ha := ht.answer a f rfl
  rw [hf] at ha
  obtain ⟨tips, h1, h2⟩ := ha
  obtain ⟨raws, hwin, hs⟩ := ht.window
  have hsp := h'.paramsOf.stylus
  have hblank : m'.stylus.state.blank = true ↔ Bare ((e :: a ++ [f]).map Event.input) := by
    have e1 := ht.pressure; have e2 := ht.tilt; have e3 := ht.orientation
    unfold StylusModelerState.blank Bare
    rw [e1, e2, e3]
    simp only [Bool.and_eq_true, List.any_eq_true, and_assoc, List.mem_map, exists_exists_and_eq_and, ← List.cons_append]
  have hlenr : raws.length = (polyline P e (a ++ [f])).length := by
    have := congrArg List.length hs.kin; simpa using this
  obtain ⟨j, hj, hin⟩ : ∃ j, Held p.stylus ((polyline P e (a ++ [f])).map Ref.Tip.time) j ∧
      (¬(p.stylus.useStrokeNormalProjection = false ∧ Bare ((e :: a ++ [f]).map Event.input)) →
        m'.stylus.state.inputs = raws.drop j ∧ m'.stylus.state.inputs ≠ []) := by
    have hne : raws ≠ [] := by
      intro hnil
      have := congrArg List.length hs.pressure
      simp [hnil] at this
    have hpos : 0 < raws.length := List.length_pos_iff.2 hne
    obtain ⟨hv1, hv2⟩ := validStylus h'.valid
    cases hu : p.stylus.useStrokeNormalProjection with
    | false =>
      refine ⟨raws.length - p.stylus.maxInputSamples.toNat, ⟨fun _ => by rw [List.length_map, ← hlenr], by simp [hu], by simp [hu], by simp [hu]⟩,
        fun hb => ?_⟩
      have hb' : m'.stylus.state.blank = false := by
        rw [← Bool.not_eq_true, hblank]; exact fun h => hb ⟨rfl, h⟩
      have e1 := hwin.closest hu hb'
      refine ⟨e1, fun hn => ?_⟩
      have := congrArg List.length e1
      have hmax := hv2 hu
      rw [hn, List.length_drop, List.length_nil] at this
      omega
    | true =>
      obtain ⟨⟨pre, hpre⟩, hlen⟩ := hwin.suffix hu
      have hj : raws.drop pre.length = m'.stylus.state.inputs := by rw [← hpre]; simp
      have hlen2 : m'.stylus.state.inputs.length = raws.length - pre.length := by rw [← hj, List.length_drop]
      refine ⟨pre.length, ⟨by simp [hu], fun _ => ?_, fun _ t ht hmin => ?_, fun _ => ?_⟩, fun _ => ⟨hj.symm, fun hn => ?_⟩⟩
      · rw [List.length_map, ← hlenr, ← hlen2]; exact hlen
      · rw [List.length_map, ← hlenr, ← hlen2] at hmin
        rw [List.getElem?_map] at ht
        obtain ⟨tb, htb, rfl⟩ := Option.map_eq_some_iff.1 ht
        have hlt : pre.length + 1 < raws.length := by
          rw [hlenr]; exact (List.getElem?_eq_some_iff.1 htb).1
        have hd : m'.stylus.state.inputs = raws[pre.length] :: raws[pre.length + 1] :: raws.drop (pre.length + 2) := by
          rw [← hj, List.drop_eq_getElem_cons (by omega), List.drop_eq_getElem_cons (by omega)]
        obtain ⟨newest, hnew⟩ : ∃ x, raws.getLast? = some x := by
          rw [← Option.isSome_iff_exists]; simpa using hne
        have := hwin.needed hu _ _ _ newest hd hmin hnew
        have k1 : newest.time = fin (((polyline P e (a ++ [f])).map Ref.Tip.time).getLastD 0) := by
          have h3 := congrArg List.getLast? hs.kin
          rw [List.getLast?_map, hnew, List.getLast?_map] at h3
          rw [List.getLastD_eq_getLast?, List.getLast?_map]
          cases hg : (polyline P e (a ++ [f])).getLast? with
          | none => rw [hg] at h3; simp at h3
          | some x =>
            rw [hg] at h3
            simp only [Option.map_some, Option.some.injEq] at h3
            exact congrArg TipState.time h3
        have k2 : raws[pre.length + 1].time = fin tb.time := by
          have h3 := congrArg (fun l => l[pre.length + 1]?) hs.kin
          simp only [List.getElem?_map, htb, List.getElem?_eq_getElem hlt, Option.map_some, Option.some.injEq] at h3
          exact congrArg TipState.time h3
        rw [k1, k2, fin_sub] at this
        exact this
      · have h3 := congrArg (List.map TipState.time) hs.kin
        rw [List.map_map, List.map_map] at h3
        have h4 : raws.map (·.time) = ((polyline P e (a ++ [f])).map Ref.Tip.time).map fin := by rw [List.map_map]; exact h3
        rw [← h4, ← hwin.held hu, ← hj, List.map_drop, List.map_drop, ← h4]
      · have hmin := hv1 hu
        rw [hn, List.length_nil] at hlen
        have h3 : min raws.length p.stylus.minInputSamples.toNat = 0 := by omega
        omega
  refine ⟨tips, j, h1, hj, ?_⟩
  rw [← hsp] at hin ⊢
  refine (h2 hl).explained (fun hb => ?_) (fun hb => ?_) (fun i hi => List.mem_of_mem_drop hi) ?_ ?_ ?_ ?_
  · obtain ⟨h3, h4⟩ := hin hb
    refine ⟨⟨?_, ?_, ?_, ?_⟩, h4⟩
    · rw [h3, List.map_drop, List.map_drop, hs.kin]
    · rw [h3, List.map_drop, List.map_drop, hs.pressure]; rfl
    · rw [h3, List.map_drop, List.map_drop, hs.tilt]; rfl
    · rw [h3, List.map_drop, List.map_drop, hs.orientation]; rfl
  · rw [hsp] at hb
    exact hwin.cleared hb.1 (hblank.2 hb.2)
  · rw [ht.pressure, List.any_map]; rfl
  · rw [ht.tilt, List.any_map]; rfl
  · rw [ht.orientation, List.any_map]; rfl
  · rw [hsp]
    exact (validParts h'.valid).1


theorem Explained.length {nm : Bool} {lp : LoopParams XR XR} {win : List Ref.Tip} {ins all : List (Input XR XR)}
    {hist : List (Result XR XR)} {t : ℝ} {tips : List Ref.Tip}
    {out : List (Result XR XR)} (h : Explained nm lp win ins all hist t tips out) : out.length = tips.length := by
  induction h with
  | nil => rfl
  | cons _ _ ih => simp [ih]

/-- The `k`-th result comes from the `k`-th tip state, the time before being that of the `k - 1`-st. -/
theorem Explained.get {nm : Bool} {lp : LoopParams XR XR} {win : List Ref.Tip} {ins all : List (Input XR XR)}
    {hist : List (Result XR XR)} {t : ℝ} {tips : List Ref.Tip}
    {out : List (Result XR XR)} (h : Explained nm lp win ins all hist t tips out) {k : ℕ} {r : Result XR XR} (hr : out[k]? = some r) :
    ∃ t' q, (t :: tips.map Ref.Tip.time)[k]? = some t' ∧ tips[k]? = some q ∧ (nm = false ∧ Bare all → r = bareResult q) ∧
      (¬(nm = false ∧ Bare all) → ∃ foot c, Explains nm lp win ins all (hist ++ out.take k) t' q r foot c) := by
  induction h generalizing k with
  | nil => simp at hr
  | @cons hist t q r' qs out h ht ih =>
    cases k with
    | zero =>
      simp only [List.getElem?_cons_zero, Option.some.injEq] at hr
      subst hr
      exact ⟨t, q, rfl, rfl, by simpa using h⟩
    | succ k =>
      rw [List.getElem?_cons_succ] at hr
      obtain ⟨t', q', h1, h2, h3⟩ := ih hr
      refine ⟨t', q', by simpa using h1, by simpa using h2, ?_⟩
      rw [List.append_assoc] at h3
      exact h3

theorem places_length (P : Ref.Params) (s : Ref.State) (is : List Ref.Touch) : (Ref.places P s is).length = is.length := by
  induction is generalizing s with
  | nil => rfl
  | cons i is ih => simp [Ref.places, ih]

theorem raws_length (l : List (ℂ × ℝ)) : (Ref.raws l).length = l.length := by
  induction l using List.reverseRecOn with
  | nil => rfl
  | append_singleton l i ih => rw [Ref.raws_append]; simp [ih]

theorem polyline_length (P : Ref.Params) (e : Event XR XR) (rest : List (Event XR XR)) :
    (polyline P e rest).length = rest.length + 1 := by
  simp [polyline, Ref.polyline, raws_length, places_length]

/-- Samples are held. -/
theorem Held.lt {p : StrokeModelParams XR XR} (hv : validateStrokeModelParams p = .ok) {times : List ℝ} (hne : times ≠ []) {j : ℕ}
    (h : Held p.stylus times j) : j < times.length := by
  obtain ⟨h1, h2⟩ := validStylus hv
  have hpos := List.length_pos_iff.2 hne
  cases hu : p.stylus.useStrokeNormalProjection with
  | false => have := h.closest hu; have := h2 hu; omega
  | true => have := h.enough hu; have := h1 hu; omega


theorem onArc_exists (a b : ℝ) : ∃ (δ : ℝ) (m : ℤ), |δ| ≤ Real.pi ∧ a + δ = b + m * (2 * Real.pi) := by
  have hpi := Real.pi_pos
  refine ⟨(b - a) - round ((b - a) / (2 * Real.pi)) * (2 * Real.pi), -round ((b - a) / (2 * Real.pi)), ?_, by push_cast; ring⟩
  have h := abs_sub_round ((b - a) / (2 * Real.pi))
  have e : (b - a) - round ((b - a) / (2 * Real.pi)) * (2 * Real.pi) =
      ((b - a) / (2 * Real.pi) - round ((b - a) / (2 * Real.pi))) * (2 * Real.pi) := by field_simp
  rw [e, abs_mul, abs_of_pos (by linarith : 0 < 2 * Real.pi)]
  nlinarith

theorem onArc_start {a b θ : ℝ} (h : Ref.OnArc a a 0 θ) : Ref.OnArc a b 0 θ := by
  obtain ⟨δ, m, h1, h2⟩ := onArc_exists a b
  obtain ⟨_, _, n, _, _, h3⟩ := h.eq
  exact ⟨h.nonneg, h.le, δ, m, n, h1, h2, by rw [h3]; ring⟩

theorem onArc_end {a b θ : ℝ} (h : Ref.OnArc b b 0 θ) : Ref.OnArc a b 1 θ := by
  obtain ⟨δ, m, h1, h2⟩ := onArc_exists a b
  obtain ⟨_, _, n, _, _, h3⟩ := h.eq
  refine ⟨h.nonneg, h.le, δ, m, n - m, h1, h2, ?_⟩
  rw [h3, one_mul, h2]; push_cast; ring

/-- The values at a projection are those between two consecutive ones. -/
theorem pair_of_foot {α : Type} {l : List α} (hl : 2 ≤ l.length) {j : ℕ} (hj : j < l.length) {pos : List ℂ}
    (hpos : pos.length = l.length - j) (z : ℂ) {foot : Option (ℕ × ℝ)} (hon : ∀ k u, foot = some (k, u) → Ref.On pos k u) :
    ∃ x y u, [x, y] <:+: l ∧ 0 ≤ u ∧ u ≤ 1 ∧ (∀ g : α → ℝ, Ref.value pos z foot ((l.drop j).map g) = Ref.lerp (g x) (g y) u) ∧
      (∀ g : α → ℂ, Ref.value pos z foot ((l.drop j).map g) = Ref.lerp (g x) (g y) u) ∧
      ∀ (g : α → ℝ) θ, Ref.arcValue pos z foot ((l.drop j).map g) θ → Ref.OnArc (g x) (g y) u θ := by
  have infix_at : ∀ k (h : k + 1 < l.length), [l[k], l[k + 1]] <:+: l := by
    intro k h
    refine ⟨l.take k, l.drop (k + 2), ?_⟩
    have e1 : l.drop k = l[k] :: l[k + 1] :: l.drop (k + 2) := by
      rw [List.drop_eq_getElem_cons (by omega), List.drop_eq_getElem_cons (by omega)]
    calc l.take k ++ [l[k], l[k + 1]] ++ l.drop (k + 2) = l.take k ++ l.drop k := by rw [e1]; simp
      _ = l := List.take_append_drop k l
  have single : ∀ k (h : k < l.length), ∃ (x y : α) (u : ℝ), [x, y] <:+: l ∧ (u = 0 ∧ x = l[k] ∨ u = 1 ∧ y = l[k]) := by
    intro k h
    by_cases hk : k + 1 < l.length
    · exact ⟨_, _, 0, infix_at k hk, .inl ⟨rfl, rfl⟩⟩
    · have hk0 : k - 1 + 1 < l.length := by omega
      refine ⟨_, _, 1, infix_at (k - 1) hk0, .inr ⟨rfl, ?_⟩⟩
      congr 1; omega
  cases foot with
  | some ku =>
    obtain ⟨k, u⟩ := ku
    have h := hon k u rfl
    have h1 : j + k + 1 < l.length := by have := h.lt; omega
    have eg : ∀ {E : Type} [Zero E] (g : α → E), ((l.drop j).map g).getD k 0 = g l[j + k] ∧
        ((l.drop j).map g).getD (k + 1) 0 = g l[j + k + 1] := by
      intro E _ g
      constructor
      · rw [List.getD_eq_getElem?_getD, List.getElem?_map, List.getElem?_drop, List.getElem?_eq_getElem (by omega)]; rfl
      · rw [List.getD_eq_getElem?_getD, List.getElem?_map, List.getElem?_drop, List.getElem?_eq_getElem (by omega)]; rfl
    refine ⟨l[j + k], l[j + k + 1], u, infix_at _ h1, h.nonneg, h.le, fun g => ?_, fun g => ?_, fun g θ hθ => ?_⟩
    · simp only [Ref.value, Ref.along, eg g]
    · simp only [Ref.value, Ref.along, eg g]
    · simpa only [Ref.arcValue, eg g] using hθ
  | none =>
    -- the sample is the first or the last one held
    obtain ⟨i, hi, hval⟩ : ∃ i, ∃ h : i < l.length, ∀ {E : Type} [AddCommGroup E] [Module ℝ E] (g : α → E),
        Ref.value pos z none ((l.drop j).map g) = g l[i] := by
      by_cases hc : ‖pos.headD 0 - z‖ < ‖pos.getLastD 0 - z‖
      · refine ⟨j, hj, fun g => ?_⟩
        simp only [Ref.value, hc, ↓reduceIte]
        rw [List.drop_eq_getElem_cons hj]; rfl
      · refine ⟨l.length - 1, by omega, fun g => ?_⟩
        simp only [Ref.value, hc, ↓reduceIte]
        rw [List.getLastD_eq_getLast?, List.getLast?_map, List.getLast?_drop, if_neg (by omega), List.getLast?_eq_getElem?,
          List.getElem?_eq_getElem (by omega)]
        rfl
    obtain ⟨x, y, u, h1, ⟨rfl, rfl⟩ | ⟨rfl, rfl⟩⟩ := single i hi
    · refine ⟨_, _, 0, h1, le_rfl, zero_le_one, fun g => ?_, fun g => ?_, fun g θ hθ => ?_⟩
      · rw [hval]; simp [Ref.lerp]
      · rw [hval]; simp [Ref.lerp]
      · simp only [Ref.arcValue, hval] at hθ; exact onArc_start hθ
    · refine ⟨_, _, 1, h1, zero_le_one, le_rfl, fun g => ?_, fun g => ?_, fun g θ hθ => ?_⟩
      · rw [hval]; simp [Ref.lerp]
      · rw [hval]; simp [Ref.lerp]
      · simp only [Ref.arcValue, hval] at hθ; exact onArc_end hθ


end XR
end
end Ink
