import Verif.IEEE.Reference
import Verif.Lemmas.SymmetryKalman
/-!
# IEEE floats respect the symmetries of the coordinate axes
-/
namespace Ink
open Scalar Arith

/-- What is further assumed of the C math library: the hypotenuse does not depend on signs or order (ISO/IEC 9899 F.10.4.3: "hypot(x, y),
hypot(y, x), and hypot(x, -y) are equivalent"), the arc cosine does not depend on the sign of zero. -/
class LibmEven [Libm] : Prop where
  hypot_neg (x y : Fl f32) : x.Finite → y.Finite → Libm.hypot (-x) y = Libm.hypot x y
  hypot_comm (x y : Fl f32) : x.Finite → y.Finite → Libm.hypot x y = Libm.hypot y x
  acos_zero : Libm.acos (-0) = Libm.acos 0

namespace Fl
variable {f : Fmt}

theorem neg_mk' (s : Bool) (n d : Nat) : neg (mk' f s n d) = mk' f (!s) n d := by
  unfold mk'
  split <;> rfl

theorem mk'_zero (s : Bool) (d : Nat) : mk' f s 0 d = fin s 0 (by simp [Fmt.Rep]) := by
  have h : f.roundMag 0 d = 0 := by
    unfold Fmt.roundMag Fmt.roundDiv
    simp
  unfold mk'
  simp only [h, Nat.zero_le, ↓reduceDIte]

theorem lit_zero : (0 : Fl f) = fin false 0 (by simp [Fmt.Rep]) := by
  show ofUnits f false _ 1 = _
  unfold ofUnits
  simp [mk'_zero]

theorem eq_zero_iff {a : Fl f} : (a =ᵇ 0) = true ↔ ∃ s, a = fin s 0 (by simp [Fmt.Rep]) := by
  rw [lit_zero]
  show eq a _ = true ↔ _
  constructor
  · intro h
    rcases a with _ | s | ⟨s, k, hk⟩
    · simp [eq, isNaN] at h
    · cases s <;> simp [eq, isNaN, key, sgn] at h <;> omega
    · have : k = 0 := by cases s <;> simpa [eq, isNaN, key, sgn] using h
      subst this
      exact ⟨s, rfl⟩
  · rintro ⟨s, rfl⟩
    cases s <;> simp [eq, isNaN, key, sgn]

theorem alike_iff {a b : Fl f} : (a ≋ b) ↔ a = b ∨
    ∃ s t, a = fin s 0 (by simp [Fmt.Rep]) ∧ b = fin t 0 (by simp [Fmt.Rep]) := by
  unfold Ink.Alike
  rw [eq_zero_iff, eq_zero_iff]
  constructor
  · rintro (h | ⟨⟨s, h⟩, t, h'⟩)
    · exact .inl h
    · exact .inr ⟨s, t, h, h'⟩
  · rintro (h | ⟨s, t, h, h'⟩)
    · exact .inl h
    · exact .inr ⟨⟨s, h⟩, t, h'⟩

theorem alike_zero (s t : Bool) : (fin s 0 (by simp [Fmt.Rep]) : Fl f) ≋ fin t 0 (by simp [Fmt.Rep]) := alike_iff.2 (.inr ⟨s, t, rfl, rfl⟩)

theorem sgn_zero (s : Bool) : sgn s 0 = 0 := by cases s <;> rfl

theorem sgn_not (s : Bool) (k : Nat) : sgn (!s) k = - sgn s k := by cases s <;> simp [sgn]

theorem neg_ofUnits (s t : Bool) (z : Int) (d : Nat) : neg (ofUnits f s z d) ≋ ofUnits f t (-z) d := by
  unfold ofUnits
  rw [neg_mk']
  rcases Int.lt_trichotomy z 0 with h | rfl | h
  · have h1 : ¬ z = 0 := by omega
    have h2 : ¬ -z = 0 := by omega
    have h3 : ¬ -z < 0 := by omega
    simp only [h, h2, h3, h1, ↓reduceIte, decide_true, decide_false, Bool.not_true, Int.natAbs_neg]; exact .refl _
  · simp only [Int.neg_zero, Int.natAbs_zero, mk'_zero]; exact alike_zero _ _
  · have h1 : ¬ z = 0 := by omega
    have h2 : ¬ -z = 0 := by omega
    have h3 : -z < 0 := by omega
    have h4 : ¬ z < 0 := by omega
    simp only [h2, h3, h1, h4, ↓reduceIte, decide_true, decide_false, Bool.not_false, Int.natAbs_neg]; exact .refl _

theorem ofUnits_alike (s t : Bool) (z : Int) (d : Nat) : ofUnits f s z d ≋ ofUnits f t z d := by
  unfold ofUnits
  by_cases h : z = 0
  · subst h; simp only [Int.natAbs_zero, mk'_zero]; exact alike_zero _ _
  · simp only [h, ↓reduceIte]; exact .refl _

instance : SignLaws (Fl f) where
  add_comm := by
    rintro (_ | a | ⟨a, k, hk⟩) (_ | b | ⟨b, l, hl⟩) <;> try rfl
    · show (if a = b then inf a else nan) = (if b = a then inf b else nan)
      cases a <;> cases b <;> rfl
    · show ofUnits f (a && b) _ 1 = ofUnits f (b && a) _ 1
      rw [Bool.and_comm, Int.add_comm]
  mul_comm := by
    rintro (_ | a | ⟨a, k, hk⟩) (_ | b | ⟨b, l, hl⟩) <;> try rfl
    · show inf _ = inf _
      cases a <;> cases b <;> rfl
    · show (if l = 0 then nan else inf (a != b)) = (if l = 0 then nan else inf (b != a))
      cases a <;> cases b <;> rfl
    · show (if k = 0 then nan else inf (a != b)) = (if k = 0 then nan else inf (b != a))
      cases a <;> cases b <;> rfl
    · show mk' f (a != b) _ _ = mk' f (b != a) _ _
      rw [Nat.mul_comm]
      cases a <;> cases b <;> rfl
  neg_neg := by
    rintro (_ | a | ⟨a, k, hk⟩)
    · rfl
    · cases a <;> rfl
    · cases a <;> rfl
  mul_neg := by
    rintro (_ | a | ⟨a, k, hk⟩) (_ | b | ⟨b, l, hl⟩) <;> try rfl
    · cases a <;> cases b <;> rfl
    · show (if l = 0 then nan else inf (a != !b)) = neg (if l = 0 then nan else inf (a != b))
      split <;> cases a <;> cases b <;> rfl
    · show (if k = 0 then nan else inf (a != !b)) = neg (if k = 0 then nan else inf (a != b))
      split <;> cases a <;> cases b <;> rfl
    · show mk' f (a != !b) _ _ = neg (mk' f (a != b) _ _)
      rw [neg_mk']
      cases a <;> cases b <;> rfl
  neg_div := by
    rintro (_ | a | ⟨a, k, hk⟩) (_ | b | ⟨b, l, hl⟩) <;> try rfl
    · cases a <;> cases b <;> rfl
    · cases a <;> cases b <;> rfl
    · show (if l = 0 then (if k = 0 then nan else inf ((!a) != b)) else mk' f ((!a) != b) (k * 2 ^ f.q) l) =
        neg (if l = 0 then (if k = 0 then nan else inf (a != b)) else mk' f (a != b) (k * 2 ^ f.q) l)
      split
      · split <;> cases a <;> cases b <;> rfl
      · rw [neg_mk']; cases a <;> cases b <;> rfl
  sub_def _ _ := rfl
  neg_add := by
    rintro (_ | a | ⟨a, k, hk⟩) (_ | b | ⟨b, l, hl⟩) <;> try exact .refl _
    · refine .inl ?_
      show neg (if a = b then inf a else nan) = (if (!a) = (!b) then inf (!a) else nan)
      cases a <;> cases b <;> rfl
    · show neg (ofUnits f (a && b) (sgn a k + sgn b l) 1) ≋ ofUnits f (!a && !b) (sgn (!a) k + sgn (!b) l) 1
      rw [sgn_not, sgn_not, ← Int.neg_add]
      exact neg_ofUnits _ _ _ _
  neg_zero := by rw [lit_zero]; exact alike_zero _ _
  add_left := by
    intro a a' h b
    rcases alike_iff.1 h with rfl | ⟨s, t, rfl, rfl⟩
    · exact .refl _
    · rcases b with _ | b | ⟨b, l, hl⟩
      · exact .refl _
      · exact .refl _
      · show ofUnits f (s && b) (sgn s 0 + sgn b l) 1 ≋ ofUnits f (t && b) (sgn t 0 + sgn b l) 1
        rw [sgn_zero, sgn_zero]
        exact ofUnits_alike _ _ _ _
  mul_left := by
    intro a a' h b
    rcases alike_iff.1 h with rfl | ⟨s, t, rfl, rfl⟩
    · exact .refl _
    · rcases b with _ | b | ⟨b, l, hl⟩
      · exact .refl _
      · exact .refl _
      · show mk' f (s != b) (0 * l) _ ≋ mk' f (t != b) (0 * l) _
        rw [Nat.zero_mul, mk'_zero, mk'_zero]
        exact alike_zero _ _
  div_left := by
    intro a a' h b
    rcases alike_iff.1 h with rfl | ⟨s, t, rfl, rfl⟩
    · exact .refl _
    · rcases b with _ | b | ⟨b, l, hl⟩
      · exact .refl _
      · exact alike_zero _ _
      · show (if l = 0 then (if 0 = 0 then nan else inf (s != b)) else mk' f (s != b) (0 * 2 ^ f.q) l) ≋
          (if l = 0 then (if 0 = 0 then nan else inf (t != b)) else mk' f (t != b) (0 * 2 ^ f.q) l)
        split
        · exact .refl _
        · rw [Nat.zero_mul, mk'_zero, mk'_zero]
          exact alike_zero _ _
  neg_alike := by
    intro a a' h
    rcases alike_iff.1 h with rfl | ⟨s, t, rfl, rfl⟩
    · exact .refl _
    · exact alike_zero _ _
  mul_self := by
    intro a a' h
    rcases alike_iff.1 h with rfl | ⟨s, t, rfl, rfl⟩
    · rfl
    · cases s <;> cases t <;> rfl
  lt_left := by
    intro a a' h b
    rcases alike_iff.1 h with rfl | ⟨s, t, rfl, rfl⟩
    · rfl
    · cases s <;> cases t <;> rfl
  lt_right := by
    intro a a' h b
    rcases alike_iff.1 h with rfl | ⟨s, t, rfl, rfl⟩
    · rfl
    · cases s <;> cases t <;> rfl
  le_left := by
    intro a a' h b
    rcases alike_iff.1 h with rfl | ⟨s, t, rfl, rfl⟩
    · rfl
    · cases s <;> cases t <;> rfl
  le_right := by
    intro a a' h b
    rcases alike_iff.1 h with rfl | ⟨s, t, rfl, rfl⟩
    · rfl
    · cases s <;> cases t <;> rfl
  eq_left := by
    intro a a' h b
    rcases alike_iff.1 h with rfl | ⟨s, t, rfl, rfl⟩
    · rfl
    · cases s <;> cases t <;> rfl
  eq_right := by
    intro a a' h b
    rcases alike_iff.1 h with rfl | ⟨s, t, rfl, rfl⟩
    · rfl
    · cases s <;> cases t <;> rfl
  eq_neg := by
    have hn : ∀ a : Fl f, isNaN (neg a) = isNaN a := by rintro (_ | a | ⟨a, k, hk⟩) <;> rfl
    have hk : ∀ a : Fl f, key (neg a) = -key a := by
      rintro (_ | a | ⟨a, k, hk⟩)
      · rfl
      · exact sgn_not _ _
      · exact sgn_not _ _
    intro a b
    show (!isNaN (neg a) && !isNaN (neg b) && decide (key (neg a) = key (neg b))) = (!isNaN a && !isNaN b && decide (key a = key b))
    rw [hn, hn, hk, hk]
    congr 2
    exact propext ⟨fun h => by omega, fun h => by omega⟩
  isNaN_alike := by
    intro a a' h
    rcases alike_iff.1 h with rfl | ⟨s, t, rfl, rfl⟩ <;> rfl
  isInf_alike := by
    intro a a' h
    rcases alike_iff.1 h with rfl | ⟨s, t, rfl, rfl⟩ <;> rfl
  isNaN_neg := by rintro (_ | a | ⟨a, k, hk⟩) <;> rfl
  isInf_neg := by rintro (_ | a | ⟨a, k, hk⟩) <;> rfl
  abs_alike := by
    intro a a' h
    rcases alike_iff.1 h with rfl | ⟨s, t, rfl, rfl⟩ <;> rfl
  lt_zero := by rw [lit_zero]; rfl
  zero_eq := by rw [lit_zero]; rfl

theorem convert_alike {g : Fmt} {a a' : Fl f} (h : a ≋ a') : convert g a ≋ convert g a' := by
  rcases alike_iff.1 h with rfl | ⟨s, t, rfl, rfl⟩
  · exact .refl _
  · show mk' g s (0 * _) _ ≋ mk' g t (0 * _) _
    rw [Nat.zero_mul, mk'_zero, mk'_zero]
    exact alike_zero _ _

theorem convert_neg {g : Fmt} (a : Fl f) : convert g (neg a) = neg (convert g a) := by
  rcases a with _ | a | ⟨a, k, hk⟩
  · rfl
  · rfl
  · exact (neg_mk' _ _ _).symm

instance [Libm] [LibmEven] : ArithLaws (Fl f32) (D := Fl f64) where
  widen_alike := convert_alike
  narrow_alike := convert_alike
  widen_neg := convert_neg
  narrow_neg := convert_neg
  hypot_left := by
    intro a a' h b
    rcases alike_iff.1 h with rfl | ⟨s, t, rfl, rfl⟩
    · rfl
    · rcases b with _ | b | ⟨b, l, hl⟩
      · rfl
      · rfl
      · show (if l = 0 then _ else if 0 = 0 then _ else _) = (if l = 0 then _ else if 0 = 0 then _ else _)
        simp
  hypot_neg := by
    rintro (_ | a | ⟨a, k, hk⟩) (_ | b | ⟨b, l, hl⟩) <;> try rfl
    show (if l = 0 then _ else if k = 0 then _ else Libm.hypot (fin (!a) k hk) _) = (if l = 0 then _ else if k = 0 then _ else _)
    split
    · rfl
    · split
      · rfl
      · exact LibmEven.hypot_neg (fin a k hk) (fin b l hl) (finite_iff.2 ⟨_, _, _, rfl⟩) (finite_iff.2 ⟨_, _, _, rfl⟩)
  hypot_comm := by
    rintro (_ | a | ⟨a, k, hk⟩) (_ | b | ⟨b, l, hl⟩) <;> try rfl
    show (if l = 0 then _ else if k = 0 then _ else _) = (if k = 0 then _ else if l = 0 then _ else _)
    by_cases h : l = 0 <;> by_cases h' : k = 0 <;> simp only [h, h', ↓reduceIte]
    exact LibmEven.hypot_comm (fin a k hk) (fin b l hl) (finite_iff.2 ⟨_, _, _, rfl⟩) (finite_iff.2 ⟨_, _, _, rfl⟩)
  acos_alike := by
    intro a a' h
    have key : ∀ s, Libm.acos (fin s 0 (by simp [Fmt.Rep])) = Libm.acos 0 := by
      intro s
      cases s
      · rw [lit_zero]
      · have := LibmEven.acos_zero
        rwa [lit_zero] at this
    rcases alike_iff.1 h with rfl | ⟨s, t, rfl, rfl⟩
    · rfl
    · exact (key s).trans (key t).symm
  twoPi_zero := by
    change lt ((2 : Fl f64) * ofRatio 884279719003555 281474976710656) (convert f64 (0 : Fl f32)) = false
    decide +kernel

end Fl

theorem Libm.reference_even : @LibmEven Libm.reference := by
  let _ : Libm := Libm.reference
  refine { hypot_neg := ?_, hypot_comm := ?_, acos_zero := by decide +kernel }
  · intro x y hx hy
    obtain ⟨a, k, hk, rfl⟩ := Fl.finite_iff.1 hx
    obtain ⟨b, l, hl, rfl⟩ := Fl.finite_iff.1 hy
    rfl
  · intro x y hx hy
    obtain ⟨a, k, hk, rfl⟩ := Fl.finite_iff.1 hx
    obtain ⟨b, l, hl, rfl⟩ := Fl.finite_iff.1 hy
    show Fl.mk' _ _ _ _ = Fl.mk' _ _ _ _
    rw [Nat.add_comm (k * k)]

end Ink
