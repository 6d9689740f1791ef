import Verif.IEEE.Reference
import Verif.Spec.History
/-!
# Concrete sessions on IEEE floats

Used beside the theorems to show that their hypotheses are met by non-trivial cases, and as witnesses of the
refutations. All stylus fields are -1 unless said otherwise.
-/
namespace Ink.Ex
open Scalar

/-- The examples use the reference math library. -/
scoped instance libm : Libm := Libm.reference

/-- `float` -/
abbrev F32 := Fl f32
/-- `double` -/
abbrev F64 := Fl f64

/-- An input without stylus data. -/
def inp (e : EventType) (x y : F32) (t : F64) : Input F32 F64 := ⟨e, ⟨x, y⟩, t, -1, -1, -1⟩

/-- The double nearest to `n / d`. -/
def d (n : Int) (k : Nat) : F64 := ofRatio n k
/-- The float nearest to `n / d`. -/
def fl (n : Int) (k : Nat) : F32 := ofRatio n k

/-- The parameters of the unit tests (stroke_modeler_test.cc:38-52). -/
def params : StrokeModelParams F32 F64 where
  wobble := { isEnabled := true, timeout := d 4 100, speedFloor := fl 131 100, speedCeiling := fl 144 100 }
  position := .default
  sampling :=
    { minOutputRate := 180, endOfStrokeStoppingDistance := fl 1 1000, endOfStrokeMaxIterations := 20
      maxOutputsPerCall := 20, maxEstimatedAngle := -1 }
  stylus := { maxInputSamples := 20, useStrokeNormalProjection := false, minInputSamples := -1, minSampleDuration := -1 }
  prediction := .strokeEnd

/-- `run` from a new modeler, keeping the responses only. -/
def responses (ops : List (Op F32 F64)) : Outcome (List (Response F32 F64)) := Prod.snd <$> run .default ops

def stroke1 : List (Op F32 F64) :=
  [.resetParams params, .update (inp .down 3 4 0) [], .predict [],
   .update (inp .move (fl 32 10) (fl 42 10) (d 1 30)) [], .predict []]

example : ((responses stroke1).bind fun rs => .ok (rs.map fun r => (r.status, r.results.length))) =
    .ok [(.ok, 0), (.ok, 1), (.ok, 0), (.ok, 7), (.ok, 8)] := by decide +kernel

/-- The parameters of the unit tests with prediction switched off. -/
def disabled : StrokeModelParams F32 F64 := { params with prediction := .disabled }

/-- Prediction is disabled after a `Save`; then a stroke starts. -/
def staleOps : List (Op F32 F64) :=
  [.resetParams params, .save, .resetParams disabled, .update (inp .down 0 0 0) []]

/-- A stroke with three inputs. -/
def stroke2 : List (Op F32 F64) :=
  [.update (inp .down 3 4 0) [], .update (inp .move (fl 32 10) (fl 42 10) (d 1 50)) [],
   .update (inp .up (fl 35 10) (fl 42 10) (d 2 50)) []]

/-- Invalid parameters: NaN as speed floor of the wobble smoother. -/
def badParams : StrokeModelParams F32 F64 := { params with wobble := { params.wobble with speedFloor := .nan } }

/-- Closes an equation that holds by evaluation, leaving all of the evaluation to the kernel. -/
scoped macro "kernel_rfl" : tactic => `(tactic| run_tac do
  let g ← Lean.Elab.Tactic.getMainGoal
  let some (_, a, _) := (← g.getType).eq? | throwError "not an equation"
  g.assign (← Lean.Meta.mkEqRefl a))

section Holds
variable {F D : Type} [Scalar F] [Scalar D] [Arith F D]

/-- `P` holds of the responses and the state after `ops`. -/
def holds (ops : List (Op F D)) (P : List (Response F D) → StrokeModeler F D → Bool) : Bool :=
  match run .default ops with
  | .ok (m, rs) => P rs m
  | _ => false

theorem exists_session {ops : List (Op F D)} {P : List (Response F D) → StrokeModeler F D → Bool}
    (h : holds ops P = true) : ∃ rs m, Session ops rs m ∧ P rs m = true := by
  unfold holds at h
  split at h
  · rename_i m rs hr
    exact ⟨rs, m, hr, h⟩
  · simp at h

end Holds

end Ink.Ex
