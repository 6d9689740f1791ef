import Verif.Scalar
/-!
# internal/prediction/kalman_filter/matrix.h

Sums start at zero and accumulate from index 0 upwards, as in the loops of the source.
-/
namespace Ink
open Scalar

/-- Vec4, matrix.h:35-46 -/
structure Vec4 (D : Type) where
  e0 : D
  e1 : D
  e2 : D
  e3 : D
deriving Repr, DecidableEq

/-- Matrix4, matrix.h:49-93: four rows. -/
structure Matrix4 (D : Type) where
  r0 : Vec4 D
  r1 : Vec4 D
  r2 : Vec4 D
  r3 : Vec4 D
deriving Repr, DecidableEq

variable {D : Type}

/-- Column `j` of a matrix (a reading of `At(0, j) ... At(3, j)`, matrix.h:89). -/
def Matrix4.c0 (m : Matrix4 D) : Vec4 D := ⟨m.r0.e0, m.r1.e0, m.r2.e0, m.r3.e0⟩
@[inherit_doc Matrix4.c0] def Matrix4.c1 (m : Matrix4 D) : Vec4 D := ⟨m.r0.e1, m.r1.e1, m.r2.e1, m.r3.e1⟩
@[inherit_doc Matrix4.c0] def Matrix4.c2 (m : Matrix4 D) : Vec4 D := ⟨m.r0.e2, m.r1.e2, m.r2.e2, m.r3.e2⟩
@[inherit_doc Matrix4.c0] def Matrix4.c3 (m : Matrix4 D) : Vec4 D := ⟨m.r0.e3, m.r1.e3, m.r2.e3, m.r3.e3⟩

/-- Matrix4::Transpose, matrix.h:78-86 -/
def Matrix4.transpose (m : Matrix4 D) : Matrix4 D := ⟨m.c0, m.c1, m.c2, m.c3⟩

variable [Scalar D]

namespace Vec4

/-- Vec4(), matrix.h:37 -/
def zero : Vec4 D := ⟨0, 0, 0, 0⟩
/-- DotProduct, matrix.h:134-138 -/
def dot (a b : Vec4 D) : D := 0 + a.e0 * b.e0 + a.e1 * b.e1 + a.e2 * b.e2 + a.e3 * b.e3
/-- Vec4 + Vec4, matrix.h:160-164 -/
def add (a b : Vec4 D) : Vec4 D := ⟨a.e0 + b.e0, a.e1 + b.e1, a.e2 + b.e2, a.e3 + b.e3⟩
/-- Vec4 * double, matrix.h:166-170 -/
def scale (a : Vec4 D) (k : D) : Vec4 D := ⟨a.e0 * k, a.e1 * k, a.e2 * k, a.e3 * k⟩
/-- Vec4 / double, matrix.h:172-176 -/
def divs (a : Vec4 D) (k : D) : Vec4 D := ⟨a.e0 / k, a.e1 / k, a.e2 / k, a.e3 / k⟩
/-- The componentwise difference, used by Matrix4 - Matrix4 (matrix.h:213-221). -/
def sub (a b : Vec4 D) : Vec4 D := ⟨a.e0 - b.e0, a.e1 - b.e1, a.e2 - b.e2, a.e3 - b.e3⟩

end Vec4

namespace Matrix4

/-- Matrix4(): the identity, matrix.h:52-56 -/
def one : Matrix4 D := ⟨⟨1, 0, 0, 0⟩, ⟨0, 1, 0, 0⟩, ⟨0, 0, 1, 0⟩, ⟨0, 0, 0, 1⟩⟩

/-- OuterProduct, matrix.h:140-148 -/
def outer (a b : Vec4 D) : Matrix4 D :=
  let row (x : D) : Vec4 D := ⟨x * b.e0, x * b.e1, x * b.e2, x * b.e3⟩
  ⟨row a.e0, row a.e1, row a.e2, row a.e3⟩

/-- Matrix4 * Matrix4, matrix.h:191-201 -/
def mul (a b : Matrix4 D) : Matrix4 D :=
  let row (r : Vec4 D) : Vec4 D := ⟨Vec4.dot r b.c0, Vec4.dot r b.c1, Vec4.dot r b.c2, Vec4.dot r b.c3⟩
  ⟨row a.r0, row a.r1, row a.r2, row a.r3⟩

/-- Matrix4 + Matrix4, matrix.h:203-211 -/
def add (a b : Matrix4 D) : Matrix4 D :=
  ⟨a.r0.add b.r0, a.r1.add b.r1, a.r2.add b.r2, a.r3.add b.r3⟩

/-- Matrix4 - Matrix4, matrix.h:213-221 -/
def sub (a b : Matrix4 D) : Matrix4 D :=
  ⟨a.r0.sub b.r0, a.r1.sub b.r1, a.r2.sub b.r2, a.r3.sub b.r3⟩

/-- Matrix4 * double, matrix.h:223-231 -/
def scale (a : Matrix4 D) (k : D) : Matrix4 D :=
  ⟨a.r0.scale k, a.r1.scale k, a.r2.scale k, a.r3.scale k⟩

/-- Matrix4 * Vec4, matrix.h:233-241: `result[i] += v[j] * m.At(i, j)` -/
def mulVec (m : Matrix4 D) (v : Vec4 D) : Vec4 D :=
  ⟨Vec4.dot v m.r0, Vec4.dot v m.r1, Vec4.dot v m.r2, Vec4.dot v m.r3⟩

/-- Vec4 * Matrix4, matrix.h:243-251: `result[i] += v[j] * m.At(j, i)` -/
def vecMul (v : Vec4 D) (m : Matrix4 D) : Vec4 D :=
  ⟨Vec4.dot v m.c0, Vec4.dot v m.c1, Vec4.dot v m.c2, Vec4.dot v m.c3⟩

end Matrix4
end Ink
