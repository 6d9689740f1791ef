import Verif.Lemmas.Tips
/-!
# Query and InterpResult in one piece
-/
namespace Ink
open Scalar Arith

variable {F D : Type} [Scalar F] [Scalar D] [Arith F D]

/-- The orientation of InterpResult. -/
def interpOrientation (a b : Result F D) (c : F) : Outcome F :=
  if a.orientation <ᵇ 0 || b.orientation <ᵇ 0 then .ok (-1) else interpAngle a.orientation b.orientation c

/-- InterpResult given the orientation. -/
def interpResultWith (a b : Result F D) (c o : F) : Result F D :=
  { position := interpVec a.position b.position c
    velocity := interpVec a.velocity b.velocity c
    acceleration := interpVec a.acceleration b.acceleration c
    time := interpTime a.time b.time c
    pressure := if a.pressure <ᵇ 0 || b.pressure <ᵇ 0 then -1 else interp a.pressure b.pressure c
    tilt := if a.tilt <ᵇ 0 || b.tilt <ᵇ 0 then -1 else interp a.tilt b.tilt c
    orientation := o }

theorem interpResult_eq (a b : Result F D) (c : F) :
    interpResult a b c = interpResultWith a b c <$> interpOrientation a b c := by
  unfold interpResult interpOrientation
  dsimp only
  split
  · rfl
  · cases interpAngle a.orientation b.orientation c <;> rfl

theorem interpResult_ok {a b r : Result F D} {c : F} (h : interpResult a b c = .ok r) :
    ∃ o, interpOrientation a b c = .ok o ∧ r = interpResultWith a b c o := by
  rw [interpResult_eq] at h
  cases ho : interpOrientation a b c with
  | ok o => rw [ho] at h; simp only [Outcome.map_ok, Outcome.ok.injEq] at h; exact ⟨o, rfl, h.symm⟩
  | ub w => simp [ho] at h
  | diverge => simp [ho] at h

namespace StylusModeler

/-- The projection of Query. -/
def projection (m : StylusModeler F D) (tip : TipState F D) (n : Option (Vec2 F)) :
    Outcome (Option (RawInputProjection F)) :=
  match m.params.useStrokeNormalProjection, n with
  | true, some n => projectAlongStrokeNormal tip.position tip.acceleration n m.state.inputs
  | _, _ => projectToClosestPoint tip.position m.state.inputs

theorem query_eq (m : StylusModeler F D) (tip : TipState F D) (n : Option (Vec2 F)) :
    m.query tip n = if m.state.inputs.isEmpty then .ok emptyResult
      else m.projection tip n >>= fun p => projectedResult m.state.inputs tip p >>= fun r => .ok (strip m.state tip r) := by
  unfold query projection
  split
  · rfl
  · cases m.params.useStrokeNormalProjection <;> cases n <;> rfl

theorem query_ok {m : StylusModeler F D} {tip : TipState F D} {n : Option (Vec2 F)} {q : Result F D}
    (h : m.query tip n = .ok q) :
    (m.state.inputs = [] ∧ q = emptyResult) ∨
    (m.state.inputs ≠ [] ∧ ∃ p r, m.projection tip n = .ok p ∧ projectedResult m.state.inputs tip p = .ok r ∧
      q = strip m.state tip r) := by
  rw [query_eq] at h
  split at h
  · rename_i he
    simp only [Outcome.ok.injEq] at h
    exact .inl ⟨List.isEmpty_iff.1 he, h.symm⟩
  · rename_i he
    obtain ⟨p, hp, h⟩ := Outcome.bind_eq_ok.1 h
    obtain ⟨r, hr, h⟩ := Outcome.bind_eq_ok.1 h
    simp only [Outcome.ok.injEq] at h
    exact .inr ⟨fun hc => he (List.isEmpty_iff.2 hc), p, r, hp, hr, h.symm⟩

end StylusModeler
end Ink
