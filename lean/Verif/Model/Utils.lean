import Verif.Model.Types
/-!
# internal/utils.h, internal/utils.cc
-/
namespace Ink
open Scalar Arith

variable {F D : Type} [Scalar F] [Scalar D] [Arith F D]

/-- Clamp01, utils.h:33 -/
def clamp01 (v : F) : F := stdClamp v 0 1

/-- Normalize01, utils.h:38-43 -/
def normalize01 (start end_ value : F) : F :=
  if start =ᵇ end_ then (if start <ᵇ value then 1 else 0)
  else clamp01 ((value - start) / (end_ - start))

/-- Interp<float>, utils.h:47-50 -/
def interp (start end_ t : F) : F := start + (end_ - start) * clamp01 t

/-- Interp<Vec2>, utils.h:47-50 -/
def interpVec (start end_ : Vec2 F) (t : F) : Vec2 F := start + (clamp01 t •ᵥ (end_ - start))

/-- Interp<Time>, utils.h:47-50: `Duration * float` converts the clamped factor to double. -/
def interpTime (start end_ : D) (t : F) : D := start + (end_ - start) * widen (clamp01 t)

/-- InverseLerp, utils.h:56-61 -/
def inverseLerp (a b value : F) : F :=
  if b - a =ᵇ 0 then 0 else (value - a) / (b - a)

/-- `2 * kPi`, a double constant (utils.h:69-70). -/
def twoPi (F : Type) {D : Type} [Scalar D] [Arith F D] : D := 2 * Arith.pi F

/-- `angle += 2 * kPi` on a float variable: computed in double, then converted (utils.h:69). -/
def addTwoPi (angle : F) : F := narrow (widen angle + twoPi F)

/-- `angle -= 2 * kPi` on a float variable (utils.h:70). -/
def subTwoPi (angle : F) : F := narrow (widen angle - twoPi F)

/-- `while (angle < 0) angle += 2 * kPi;` (utils.h:69) -/
def normalizeUp (angle : F) : Outcome F :=
  if angle <ᵇ 0 then normalizeUp (addTwoPi angle) else .ok angle
partial_fixpoint

/-- `while (angle > 2 * kPi) angle -= 2 * kPi;` (utils.h:70) -/
def normalizeDown (angle : F) : Outcome F :=
  if twoPi F <ᵇ widen angle then normalizeDown (subTwoPi angle) else .ok angle
partial_fixpoint

/-- The lambda `normalize_angle`, utils.h:68-72. -/
def normalizeAngle (angle : F) : Outcome F := do
  let a ← normalizeUp angle
  normalizeDown a

/-- InterpAngle, utils.h:67-83 -/
def interpAngle (start end_ t : F) : Outcome F := do
  let start ← normalizeAngle start
  let end_ ← normalizeAngle end_
  let delta := end_ - start
  let end_ :=
    if widen delta <ᵇ -(Arith.pi F) then addTwoPi end_
    else if Arith.pi F <ᵇ widen delta then subTwoPi end_
    else end_
  normalizeAngle (interp start end_ t)

/-- InterpResult, utils.cc:12-31 -/
def interpResult (start end_ : Result F D) (t : F) : Outcome (Result F D) := do
  let orientation ←
    if start.orientation <ᵇ 0 || end_.orientation <ᵇ 0 then pure (-1)
    else interpAngle start.orientation end_.orientation t
  return {
    position := interpVec start.position end_.position t
    velocity := interpVec start.velocity end_.velocity t
    acceleration := interpVec start.acceleration end_.acceleration t
    time := interpTime start.time end_.time t
    pressure :=
      if start.pressure <ᵇ 0 || end_.pressure <ᵇ 0 then -1
      else interp start.pressure end_.pressure t
    tilt :=
      if start.tilt <ᵇ 0 || end_.tilt <ᵇ 0 then -1
      else interp start.tilt end_.tilt t
    orientation }

/-- Distance, utils.h:95-97 -/
def distance (start end_ : Vec2 F) : F := (end_ - start).magnitude

/-- NearestPointOnSegment, utils.h:102-110 -/
def nearestPointOnSegment (segStart segEnd point : Vec2 F) : F :=
  if Vec2.eq segStart segEnd then 0
  else
    let seg := segEnd - segStart
    let proj := point - segStart
    clamp01 (Vec2.dot proj seg / Vec2.dot seg seg)

/-- The lambda `orthogonal`, utils.cc:36. -/
def orthogonal (v : Vec2 F) : Vec2 F := ⟨-v.y, v.x⟩

/-- kCosineHalfDegree, utils.cc:34: the decimal literal is a double converted to float. -/
def kCosineHalfDegree : F := narrow (ofRatio 99996192 100000000 : D)

/-- The lambda `unit_vec`, utils.cc:70. -/
def unitVec (v : Vec2 F) : Vec2 F := v /ᵥ v.magnitude

/-- GetStrokeNormal, utils.cc:33-78 -/
def getStrokeNormal (tip : TipState F D) (prevTime : D) : Option (Vec2 F) :=
  let vMag := tip.velocity.magnitude
  let aMag := tip.acceleration.magnitude
  if vMag =ᵇ 0 && aMag =ᵇ 0 then none
  else if vMag =ᵇ 0 then some (orthogonal tip.acceleration)
  else if aMag =ᵇ 0 then some (orthogonal tip.velocity)
  else if kCosineHalfDegree * vMag * aMag <ᵇ abs (Vec2.dot tip.velocity tip.acceleration) then
    some (orthogonal tip.velocity)
  else
    -- `Vec2 * double`: the double is converted to float (utils.cc:74)
    let deltaT : F := narrow (tip.time - prevTime)
    let dir := unitVec tip.velocity + unitVec (tip.velocity + (deltaT •ᵥ tip.acceleration))
    some (orthogonal dir)

/-- The lambda `cross`, utils.cc:84. -/
def cross (a b : Vec2 F) : F := a.x * b.y - a.y * b.x

/-- ProjectToSegmentAlongNormal, utils.cc:80-94 -/
def projectToSegmentAlongNormal (segStart segEnd position strokeNormal : Vec2 F) : Option F :=
  let v := segEnd - segStart
  let det := cross strokeNormal v
  if det =ᵇ 0 then none
  else
    let w := segStart - position
    let param := cross w strokeNormal / det
    if param <ᵇ 0 || 1 <ᵇ param then none else some param

end Ink
