import Verif.Exact.XR
import Verif.Lemmas.SymmetryKalman
/-!
# Exact numbers respect the symmetries of the coordinate axes
-/
namespace Ink.XR
open Scalar Arith Classical

theorem alike_iff {a b : XR} : (a ≋ b) ↔ a = b := by
  constructor
  · rintro (h | ⟨h, h'⟩)
    · exact h
    · rw [lit0] at h h'
      rcases a with _ | s | a
      · cases h
      · cases h
      · rcases b with _ | t | b
        · cases h'
        · cases h'
        · rw [fin_eq, decide_eq_true_eq] at h h'
          rw [h, h']
  · exact .inl

noncomputable instance : SignLaws XR where
  add_comm := by
    rintro (_ | a | a) (_ | b | b) <;> try rfl
    · show (if a = b then inf a else nan) = (if b = a then inf b else nan)
      cases a <;> cases b <;> rfl
    · show fin _ = fin _
      rw [add_comm]
  mul_comm := by
    rintro (_ | a | a) (_ | b | b) <;> try rfl
    · show inf _ = inf _
      rw [Bool.xor_comm]
    · show fin _ = fin _
      rw [mul_comm]
  neg_neg := by
    rintro (_ | a | a)
    · rfl
    · show inf _ = inf _; rw [Bool.not_not]
    · show fin _ = fin _; rw [neg_neg]
  mul_neg := by
    rintro (_ | a | a) (_ | b | b) <;> try rfl
    · show inf _ = inf _; cases a <;> cases b <;> rfl
    · show (if -b = 0 then nan else inf (a ^^ decide (-b < 0))) = XR.neg (if b = 0 then nan else inf (a ^^ decide (b < 0)))
      rcases lt_trichotomy b 0 with h | h | h
      · simp [h, h.ne, not_lt.2 h.le, XR.neg]
      · simp [h, XR.neg]
      · simp [h, h.ne', not_lt.2 h.le, XR.neg]
    · show (if a = 0 then nan else inf (!b ^^ decide (a < 0))) = XR.neg (if a = 0 then nan else inf (b ^^ decide (a < 0)))
      split
      · rfl
      · show inf _ = inf _; cases b <;> cases decide (a < 0) <;> rfl
    · show fin _ = fin _; rw [mul_neg]
  neg_div := by
    rintro (_ | a | a) (_ | b | b) <;> try rfl
    · show inf _ = inf _; cases a <;> cases decide (b < 0) <;> rfl
    · show fin _ = fin _; rw [neg_zero]
    · show (if b = 0 then (if -a = 0 then nan else inf (decide (-a < 0))) else fin (-a / b)) =
        XR.neg (if b = 0 then (if a = 0 then nan else inf (decide (a < 0))) else fin (a / b))
      split
      · rcases lt_trichotomy a 0 with h | h | h
        · simp [h, h.ne, not_lt.2 h.le, XR.neg]
        · simp [h, XR.neg]
        · simp [h, h.ne', not_lt.2 h.le, XR.neg]
      · show fin _ = fin _; rw [neg_div]
  sub_def _ _ := rfl
  neg_add := by
    rintro (_ | a | a) (_ | b | b) <;> try exact .refl _
    · refine .inl ?_
      show XR.neg (if a = b then inf a else nan) = (if (!a) = (!b) then inf (!a) else nan)
      cases a <;> cases b <;> rfl
    · refine .inl ?_
      show fin _ = fin _; rw [neg_add]
  neg_zero := by rw [lit0]; refine .inl ?_; show fin _ = fin _; rw [neg_zero]
  add_left := by intro a a' h b; rw [alike_iff.1 h]; exact .refl _
  mul_left := by intro a a' h b; rw [alike_iff.1 h]; exact .refl _
  div_left := by intro a a' h b; rw [alike_iff.1 h]; exact .refl _
  neg_alike := by intro a a' h; rw [alike_iff.1 h]; exact .refl _
  mul_self := by intro a a' h; rw [alike_iff.1 h]
  lt_left := by intro a a' h b; rw [alike_iff.1 h]
  lt_right := by intro a a' h b; rw [alike_iff.1 h]
  le_left := by intro a a' h b; rw [alike_iff.1 h]
  le_right := by intro a a' h b; rw [alike_iff.1 h]
  eq_left := by intro a a' h b; rw [alike_iff.1 h]
  eq_right := by intro a a' h b; rw [alike_iff.1 h]
  eq_neg := by
    rintro (_ | a | a) (_ | b | b) <;> try rfl
    · show ((!a) == (!b)) = (a == b); cases a <;> cases b <;> rfl
    · show decide (-a = -b) = decide (a = b); simp
  isNaN_alike := by intro a a' h; rw [alike_iff.1 h]
  isInf_alike := by intro a a' h; rw [alike_iff.1 h]
  isNaN_neg := by rintro (_ | a | a) <;> rfl
  isInf_neg := by rintro (_ | a | a) <;> rfl
  abs_alike := by intro a a' h; rw [alike_iff.1 h]
  lt_zero := by simp
  zero_eq := by simp

noncomputable instance : ArithLaws XR (D := XR) where
  widen_alike h := h
  narrow_alike h := h
  widen_neg _ := rfl
  narrow_neg _ := rfl
  hypot_left := by intro a a' h b; rw [alike_iff.1 h]
  hypot_neg := by
    rintro (_ | a | a) (_ | b | b) <;> try rfl
    show fin _ = fin _
    simp [Complex.norm_def, Complex.normSq_apply]
  hypot_comm := by
    rintro (_ | a | a) (_ | b | b) <;> try rfl
    show fin _ = fin _
    simp [Complex.norm_def, Complex.normSq_apply, add_comm]
  acos_alike := by intro a a' h; rw [alike_iff.1 h]
  twoPi_zero := by
    simp only [lit0, twoPi_eq, widen_eq, fin_lt, decide_eq_false_iff_not, not_lt]
    positivity

end Ink.XR
