import Verif.IEEE.Symmetry
import Verif.Exact.Symmetry
import Verif.Examples.Base
/-!
# Turned and mirrored strokes: C56, C57

C56: turning all positions by 90 degrees turns all results, and nothing else changes. C57: the same for the mirror image, which is true
when stylus data is found by the closest point and false when it is found along the stroke normal.
-/
namespace Ink
open Scalar Arith

theorem Symmetry.turn_allows {F D : Type} (op : Op F D) : Symmetry.turn.AllowsOp op := by
  cases op with
  | resetParams p => exact nofun
  | _ => trivial

/-! ## Quarter turns -/

/-- **C56 on floats.** For any parameters and any calls: if all positions are turned by 90 degrees, all calls answer with the same status
code, positions, velocities and accelerations are turned, and times, pressure, tilt and orientation are the same, bit by bit except for
signs of zeros. -/
theorem C56_turn [Libm] [LibmEven] (ops : List (Op (Fl f32) (Fl f64))) :
    List.Forall₂ Symmetry.turn.Answer (observe .default ops) (observe .default (ops.map Symmetry.turn.op)) :=
  Symmetry.Mod.observe (fun op _ => Symmetry.turn_allows op) .default

/-- On exact numbers the images are equal. -/
theorem XR.res_iff {g : Symmetry} {r s : Result XR XR} : g.Res r s ↔ s = g.result r := by
  constructor
  · rintro ⟨⟨h1, h2⟩, ⟨h3, h4⟩, ⟨h5, h6⟩, h7, h8, h9, h10⟩
    rw [XR.alike_iff] at h1 h2 h3 h4 h5 h6 h8 h9 h10
    obtain ⟨⟨a, b⟩, ⟨c, d⟩, ⟨e, f⟩, t, p, q, o⟩ := s
    dsimp only at *
    subst h1 h2 h3 h4 h5 h6 h7 h8 h9 h10
    rfl
  · rintro rfl
    exact .of r

/-- **C56 on exact numbers.** If all positions are turned by 90 degrees, so are all results. -/
theorem C56_turn_exact (ops : List (Op XR XR)) :
    List.Forall₂ Symmetry.turn.Answer (observe .default ops) (observe .default (ops.map Symmetry.turn.op)) :=
  Symmetry.Mod.observe (fun op _ => Symmetry.turn_allows op) .default

/-- The results of a turned session are the turned results. -/
theorem C56_results_exact (ops : List (Op XR XR)) (n : Nat) (r s : Response XR XR)
    (hr : (observe .default ops)[n]? = some (.ok r))
    (hs : (observe .default (ops.map Symmetry.turn.op))[n]? = some (.ok s)) : s.results = r.results.map Symmetry.turn.result := by
  have h := C56_turn_exact ops
  obtain ⟨hl, hr⟩ := List.getElem?_eq_some_iff.1 hr
  obtain ⟨hl', hs⟩ := List.getElem?_eq_some_iff.1 hs
  have := (List.forall₂_iff_get.1 h).2 n hl hl'
  rw [List.get_eq_getElem, List.get_eq_getElem, hr, hs] at this
  obtain ⟨_, h⟩ := this
  generalize r.results = u at h
  generalize s.results = w at h
  induction h with
  | nil => rfl
  | cons h _ ih => rw [List.map_cons, ← ih, XR.res_iff.1 h]

/-! ## The mirror image -/

/-- The full C57, for sessions whose parameters satisfy `P`. -/
def MirrorFor (F D : Type) [Scalar F] [Scalar D] [Arith F D] (P : StrokeModelParams F D → Prop) : Prop :=
  ∀ ops : List (Op F D), (∀ p, .resetParams p ∈ ops → P p) →
    List.Forall₂ Symmetry.mirror.Answer (observe .default ops) (observe .default (ops.map Symmetry.mirror.op))

theorem Symmetry.mirror_for {F D : Type} [Scalar F] [Scalar D] [Arith F D] [SignLaws F] [SignLaws D] [ArithLaws F] :
    MirrorFor F D fun p => p.stylus.useStrokeNormalProjection = false := by
  intro ops h
  refine Symmetry.Mod.observe (fun op hop => ?_) .default
  cases op with
  | resetParams p => exact fun _ => h p hop
  | _ => trivial

/-- **C57 on floats, in closest-point mode.** If stylus data is found by the closest point, the mirror image of a session has the mirror
images of its results. Missing: parameters with `use_stroke_normal_projection`, for which it is false (`C57_refuted`). -/
theorem C57_mirror_partial [Libm] [LibmEven] : MirrorFor (Fl f32) (Fl f64) fun p => p.stylus.useStrokeNormalProjection = false :=
  Symmetry.mirror_for

/-- **C57 on exact numbers, in closest-point mode.** -/
theorem C57_mirror_exact_partial : MirrorFor XR XR fun p => p.stylus.useStrokeNormalProjection = false := Symmetry.mirror_for

section Examples
open Ex

/-- The unit test's parameters with stroke normals and without smoothing. -/
def Ex.normals : StrokeModelParams F32 F64 :=
  { params with
    wobble := { params.wobble with isEnabled := false }
    stylus := { maxInputSamples := 20, useStrokeNormalProjection := true, minInputSamples := 10, minSampleDuration := d 5 100 } }

/-- An input with a pressure. -/
def Ex.inked (e : EventType) (x y : F32) (t : F64) (pressure : F32) : Input F32 F64 := ⟨e, ⟨x, y⟩, t, pressure, -1, -1⟩

/-- The pen jumps to both sides of the x-axis, without pressure above it and with full pressure below it, before the tip, drawn along
the x-axis, takes its first step. -/
def Ex.bothSides (p : StrokeModelParams F32 F64) : List (Op F32 F64) :=
  [.resetParams p, .update (inked .down 0 0 0 0) [], .update (inked .move 1 1 0 0) [], .update (inked .move 1 (-1) 0 1) [],
   .update (inked .move (-1) (-2) 0 1) [], .update (inked .move 2 0 (d 1 200) 1) []]

/-- The pressures of all results. -/
def Ex.pressures (l : List (Outcome (Response F32 F64))) : List (List F32) :=
  l.map fun o => match o with
    | .ok r => r.results.map (·.pressure)
    | _ => []

theorem Ex.pressures_alike {g : Symmetry} {l l' : List (Outcome (Response F32 F64))} (h : List.Forall₂ g.Answer l l') :
    List.Forall₂ (List.Forall₂ Alike) (pressures l) (pressures l') := by
  induction h with
  | nil => exact .nil
  | @cons o o' l l' h _ ih =>
    refine .cons ?_ ih
    rcases o with r | w | _ <;> rcases o' with s | w' | _ <;> first | exact h.elim | skip
    · obtain ⟨_, h⟩ := h
      dsimp only
      generalize r.results = u at h
      generalize s.results = w at h
      induction h with
      | nil => exact .nil
      | cons h _ ih => exact .cons h.pressure ih
    · exact .nil
    · exact .nil

/-- The full C57 is false: with stroke normals, if the tip is not accelerated sideways and the inputs pass it on both sides, the left
side wins. The tip of this stroke has pressure 0, the tip of its mirror image has pressure 1. -/
theorem C57_refuted : ∃ L : Libm, @LibmEven L ∧ ¬ @MirrorFor (Fl f32) (Fl f64) _ _ _ fun p => (validateStrokeModelParams p).isOk = true := by
  refine ⟨Libm.reference, Libm.reference_even, fun h => ?_⟩
  have hp : (validateStrokeModelParams normals).isOk = true := by decide +kernel
  have h := pressures_alike (h (bothSides normals) (by
    intro p hp'
    have : p = normals := by simpa [bothSides] using hp'
    rw [this]; exact hp))
  have h1 : pressures (observe .default (bothSides normals)) = [[], [0], [], [], [], [0]] := by kernel_rfl
  have h2 : pressures (observe .default ((bothSides normals).map Symmetry.mirror.op)) = [[], [0], [], [], [], [1]] := by kernel_rfl
  rw [h1, h2] at h
  cases h with | cons _ h => cases h with | cons _ h => cases h with | cons _ h => cases h with | cons _ h => cases h with | cons _ h =>
    cases h with | cons h _ => cases h with | cons h _ =>
      rcases h with h | h
      · revert h; decide +kernel
      · have := h.2; revert this; decide +kernel

/-- The assumptions on the math library can be met, and the theorems are about sessions with results: the
turned stroke again has pressure 0 at the tip. -/
example : @LibmEven Libm.reference ∧
    List.Forall₂ Symmetry.turn.Answer (observe .default (bothSides normals)) (observe .default ((bothSides normals).map Symmetry.turn.op)) ∧
    pressures (observe .default ((bothSides normals).map Symmetry.turn.op)) = [[], [0], [], [], [], [0]] := by
  have := Libm.reference_even
  exact ⟨this, C56_turn _, by kernel_rfl⟩

/-- The turned and the mirrored session are different sessions. -/
example : (bothSides normals).map Symmetry.turn.op ≠ bothSides normals ∧ (bothSides normals).map Symmetry.mirror.op ≠ bothSides normals := by
  constructor <;> decide +kernel

/-- In closest-point mode. -/
example : ∀ p, Op.resetParams p ∈ bothSides params → p.stylus.useStrokeNormalProjection = false := by
  intro p hp
  have : p = params := by simpa [bothSides] using hp
  rw [this]; rfl

end Examples
end Ink
