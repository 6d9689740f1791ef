import Verif.Lemmas.Shadow
import Verif.Lemmas.Ref
import Verif.Props.FloatSpring
/-!
# Rounding errors

On floats, without wobble smoothing and loop mitigation, the results of a stroke stay near those of the exact spring.
-/
namespace Ink
noncomputable section
open Scalar Arith Fl

section Lists
variable {P : Ref.Params}

theorem pulls_append (z w : ℂ) (n j : ℕ) (l l' : List (Result (Fl f32) (Fl f64))) :
    pulls z w n j (l ++ l') = pulls z w n j l ++ pulls z w n (j + l.length) l' := by
  induction l generalizing j with
  | nil => simp [pulls]
  | cons r l ih =>
    simp only [List.cons_append, pulls, ih, List.length_cons]
    rw [show j + 1 + l.length = j + (l.length + 1) by omega]

theorem getLast?_append_D {α : Type} {l l' : List α} {u : α} (h : l.getLast? = some u) : (l ++ l').getLast? = some (l'.getLastD u) := by
  rw [List.getLast?_append, h]
  cases l' with
  | nil => rfl
  | cons a l' => rw [List.getLast?_cons, List.getLastD_cons, List.getLastD_eq_getLast?]; rfl

theorem forall₂_append_left {α β : Type} {S : α → β → Prop} {l₁ l₂ : List α} {l : List β} (h : List.Forall₂ S (l₁ ++ l₂) l) :
    ∃ m₁ m₂, List.Forall₂ S l₁ m₁ ∧ List.Forall₂ S l₂ m₂ ∧ l = m₁ ++ m₂ := by
  induction l₁ generalizing l with
  | nil => exact ⟨[], l, .nil, h, rfl⟩
  | cons a l₁ ih =>
    obtain ⟨b, l', hb, h', rfl⟩ := List.forall₂_cons_left_iff.1 h
    obtain ⟨m₁, m₂, h1, h2, rfl⟩ := ih h'
    exact ⟨b :: m₁, m₂, .cons hb h1, h2, rfl⟩

end Lists

namespace Fl

theorem Alike.num {f : Fmt} {x y : Fl f} (h : Alike x y) (hx : Finite x) : Finite y ∧ Fl.num x = Fl.num y := by
  have h1 := val_num hx
  have hy : Finite y := by
    have : IsReal y := by
      rw [Alike, h1] at h
      exact ⟨_, h.symm⟩
    have := isFinite_val.2 this
    have h2 : (!isNaN y && !isInf y) = true := this
    simpa [Finite] using h2
  refine ⟨hy, ?_⟩
  rw [Alike, h1, val_num hy] at h
  exact_mod_cast Option.some.inj h

theorem Alike.symm {f : Fmt} {x y : Fl f} (h : Alike x y) : Alike y x := Eq.symm h

/-- A point as a complex number. -/
def toC (x : Vec2 (Fl f32)) : ℂ := ⟨Fl.num x.x, Fl.num x.y⟩

/-- The anchor on floats is near the exact one. -/
structure NearAnchor (R : ℝ) (A : Vec2 (Fl f32)) (z : ℂ) : Prop where
  finx : Finite A.x
  finy : Finite A.y
  re : |z.re| ≤ R
  im : |z.im| ≤ R
  x : |Fl.num A.x - z.re| ≤ 10 * eps * R
  y : |Fl.num A.y - z.im| ≤ 10 * eps * R

variable [Libm]

/-- What is known about the tip `q` for the result number `k` and about the exact tip `u` beside it is kept by steps. -/
structure Kept (pp : PositionModelerParams (Fl f32) (Fl f64)) (P : Ref.Params) (R : ℝ) (all : List (Result (Fl f32) (Fl f64)))
    (K : ℕ → TipState (Fl f32) (Fl f64) → Ref.Tip → Prop) : Prop where
  start : ∀ {q : TipState (Fl f32) (Fl f64)} {r : Result (Fl f32) (Fl f64)}, all[0]? = some r → SameMotion q r → InReach R q.position →
    q.velocity = ⟨0, 0⟩ → q.acceleration = ⟨0, 0⟩ → K 0 q ⟨toC q.position, 0, 0, Fl.num r.time⟩
  step : ∀ {k : ℕ} {q b : TipState (Fl f32) (Fl f64)} {r r' : Result (Fl f32) (Fl f64)} {u : Ref.Tip} {A : Vec2 (Fl f32)} {z : ℂ}, K k q u →
    all[k]? = some r → all[k + 1]? = some r' → SameMotion q r → SameMotion b r' → NearAnchor R A z → Sprung pp A q b →
    K (k + 1) b (Ref.spring P u (z, Fl.num r'.time))
  again : ∀ {k : ℕ} {q : TipState (Fl f32) (Fl f64)} {r r' : Result (Fl f32) (Fl f64)} {u : Ref.Tip} {z : ℂ}, K k q u →
    all[k]? = some r → all[k + 1]? = some r' → SameMotion q r → SameMotion q r' → K (k + 1) q (Ref.spring P u (z, Fl.num r'.time))

/-- The results from number `k` on and the exact tips beside them. -/
inductive Trail (K : ℕ → TipState (Fl f32) (Fl f64) → Ref.Tip → Prop) : ℕ → List (Result (Fl f32) (Fl f64)) → List Ref.Tip → Prop
  | nil {k : ℕ} : Trail K k [] []
  | cons {k : ℕ} {r : Result (Fl f32) (Fl f64)} {out : List (Result (Fl f32) (Fl f64))} {u : Ref.Tip} {us : List Ref.Tip}
      (q : TipState (Fl f32) (Fl f64)) (hr : SameMotion q r) (hk : K k q u) (h : Trail K (k + 1) out us) : Trail K k (r :: out) (u :: us)

variable {pp : PositionModelerParams (Fl f32) (Fl f64)} {P : Ref.Params} {R : ℝ} {all : List (Result (Fl f32) (Fl f64))}
  {K : ℕ → TipState (Fl f32) (Fl f64) → Ref.Tip → Prop} {k : ℕ}

omit [Libm] in
theorem Trail.append {l l' : List (Result (Fl f32) (Fl f64))} {us us' : List Ref.Tip} (h : Trail K k l us) (h' : Trail K (k + l.length) l' us') :
    Trail K k (l ++ l') (us ++ us') := by
  induction h with
  | nil => simpa using h'
  | cons q hr hk h ih =>
    refine .cons q hr hk (ih ?_)
    rwa [List.length_cons, show ∀ a b : ℕ, a + (b + 1) = a + 1 + b by intros; omega] at h'

omit [Libm] in
theorem Trail.length {l : List (Result (Fl f32) (Fl f64))} {us : List Ref.Tip} (h : Trail K k l us) : us.length = l.length := by
  induction h with
  | nil => rfl
  | cons q hr hk h ih => simp [ih]

omit [Libm] in
theorem Trail.get {l : List (Result (Fl f32) (Fl f64))} {us : List Ref.Tip} (h : Trail K k l us) {j : ℕ} {r : Result (Fl f32) (Fl f64)} {u : Ref.Tip}
    (hr : l[j]? = some r) (hu : us[j]? = some u) : ∃ q, SameMotion q r ∧ K (k + j) q u := by
  induction h generalizing j with
  | nil => simp at hr
  | @cons k r' out u' us q hr' hk h ih =>
    cases j with
    | zero =>
      simp only [List.getElem?_cons_zero, Option.some.injEq] at hr hu
      subst hr hu
      exact ⟨q, hr', hk⟩
    | succ j =>
      simp only [List.getElem?_cons_succ] at hr hu
      obtain ⟨q', h1, h2⟩ := ih hr hu
      exact ⟨q', h1, by rwa [show k + (j + 1) = k + 1 + j by omega]⟩

/-- The tip `q` is that of the result number `k`, and `u` is beside it. -/
structure Now (K : ℕ → TipState (Fl f32) (Fl f64) → Ref.Tip → Prop) (all : List (Result (Fl f32) (Fl f64))) (k : ℕ)
    (q : TipState (Fl f32) (Fl f64)) (u : Ref.Tip) : Prop where
  at_ : ∃ r, all[k]? = some r ∧ SameMotion q r
  kept : K k q u

omit [Libm] in
theorem inReach_lerp {z w : ℂ} (hz : |z.re| ≤ R ∧ |z.im| ≤ R) (hw : |w.re| ≤ R ∧ |w.im| ≤ R) {c : ℝ} (h0 : 0 ≤ c) (h1 : c ≤ 1) :
    |(Ref.lerp z w c).re| ≤ R ∧ |(Ref.lerp z w c).im| ≤ R := by
  have : ∀ a b : ℝ, |a| ≤ R → |b| ≤ R → |a + c * (b - a)| ≤ R := by
    intro a b ha hb
    rw [abs_le] at *
    constructor <;> nlinarith
  simp only [Ref.lerp, Complex.add_re, Complex.add_im, Complex.smul_re, Complex.smul_im, Complex.sub_re, Complex.sub_im, smul_eq_mul]
  exact ⟨this _ _ hz.1 hw.1, this _ _ hz.2 hw.2⟩

omit [Libm] in
theorem anchor_path {c c' : Vec2 (Fl f32)} (hc : InReach R c) (hc' : InReach R c') (hR : 1 / 2 ^ 80 ≤ R ∧ R ≤ 2 ^ 110) {i n : ℤ} (h1 : 1 ≤ i)
    (h2 : i ≤ n) (h3 : n ≤ 2 ^ 20) :
    NearAnchor R ⟨c.x + clamp01 (ofInt i / ofInt n : Fl f32) * (c'.x - c.x), c.y + clamp01 (ofInt i / ofInt n : Fl f32) * (c'.y - c.y)⟩
      (Ref.lerp (toC c) (toC c') ((i.toNat : ℝ) / n.toNat)) := by
  obtain ⟨a1, a2⟩ := anchor_near hc.finx hc'.finx hR hc.x hc'.x h1 h2 h3 rfl
  obtain ⟨b1, b2⟩ := anchor_near hc.finy hc'.finy hR hc.y hc'.y h1 h2 h3 rfl
  obtain ⟨i, rfl⟩ := Int.eq_ofNat_of_zero_le (by omega : 0 ≤ i)
  obtain ⟨n, rfl⟩ := Int.eq_ofNat_of_zero_le (by omega : 0 ≤ n)
  have hn : (0 : ℝ) < n := by exact_mod_cast (by omega : 0 < n)
  have hin : (i : ℝ) ≤ n := by exact_mod_cast (by omega : i ≤ n)
  obtain ⟨d1, d2⟩ := inReach_lerp (z := toC c) (w := toC c') ⟨hc.x, hc.y⟩ ⟨hc'.x, hc'.y⟩ (c := (i : ℝ) / n) (by positivity)
    (by rw [div_le_one hn]; exact hin)
  refine ⟨a1, b1, d1, d2, ?_, ?_⟩
  · simpa [Ref.lerp, toC] using a2
  · simpa [Ref.lerp, toC] using b2

omit [Libm] in
theorem prefix_drop {out : List (Result (Fl f32) (Fl f64))} {r : Result (Fl f32) (Fl f64)} (h : (r :: out) <+: all.drop k) :
    all[k]? = some r ∧ out <+: all.drop (k + 1) := by
  obtain ⟨t, ht⟩ := h
  have h1 : all[k]? = some r := by
    have : (all.drop k)[0]? = some r := by rw [← ht]; rfl
    simpa using this
  refine ⟨h1, t, ?_⟩
  rw [← List.drop_drop, ← ht]
  simp

theorem Kept.path (hK : Kept pp P R all K) (hR : 1 / 2 ^ 80 ≤ R ∧ R ≤ 2 ^ 110) {c c' : Vec2 (Fl f32)} (hc : InReach R c) (hc' : InReach R c')
    {t₀ t₁ : Fl f64} {n i : ℤ} {q : TipState (Fl f32) (Fl f64)} {tips : List (TipState (Fl f32) (Fl f64))} {out : List (Result (Fl f32) (Fl f64))}
    (h : SpringPath pp c t₀ c' t₁ n i q tips) (hs : List.Forall₂ SameMotion tips out) (h1 : 1 ≤ i) (h3 : n ≤ 2 ^ 20) {u : Ref.Tip}
    (hnow : Now K all k q u) (hpre : out <+: all.drop (k + 1)) :
    Trail K (k + 1) out (Ref.follow P u (pulls (toC c) (toC c') n.toNat i.toNat out)) ∧
      Now K all (k + out.length) (tips.getLastD q) ((Ref.follow P u (pulls (toC c) (toC c') n.toNat i.toNat out)).getLastD u) := by
  induction h generalizing k u out with
  | done h =>
    cases hs
    exact ⟨.nil, hnow⟩
  | @step i q b tips hi ht hb h ih =>
    obtain ⟨r', out', hr, hs', rfl⟩ := List.forall₂_cons_left_iff.1 hs
    obtain ⟨hr', hpre⟩ := prefix_drop hpre
    obtain ⟨r, hk, hqr⟩ := hnow.at_
    have hnew := hK.step hnow.kept hk hr' hqr hr (anchor_path hc hc' hR h1 hi h3) hb
    have hle : i.toNat ≤ n.toNat := by omega
    have e1 : pulls (toC c) (toC c') n.toNat i.toNat (r' :: out') =
        (Ref.lerp (toC c) (toC c') ((i.toNat : ℝ) / n.toNat), Fl.num r'.time) :: pulls (toC c) (toC c') n.toNat (i + 1).toNat out' := by
      rw [pulls, if_pos hle, show i.toNat + 1 = (i + 1).toNat by omega]
    rw [e1]
    obtain ⟨g1, g2⟩ := ih hs' (by omega) ⟨⟨r', hr', hr⟩, hnew⟩ hpre
    refine ⟨.cons b hr hnew g1, ?_⟩
    rw [Ref.follow, List.getLastD_cons, List.getLastD_cons, List.length_cons, show k + (out'.length + 1) = k + 1 + out'.length by omega]
    exact g2

theorem Kept.rest (hK : Kept pp P R all K) (hR : 0 ≤ R) {c c' : Vec2 (Fl f32)} (hc' : InReach R c')
    {dt : Fl f64} {q : TipState (Fl f32) (Fl f64)} {tips : List (TipState (Fl f32) (Fl f64))} {out : List (Result (Fl f32) (Fl f64))}
    (h : SpringRest pp c' dt q tips) (hs : List.Forall₂ SameMotion tips out) {n j : ℕ} (hj : n < j) {u : Ref.Tip}
    (hnow : Now K all k q u) (hpre : out <+: all.drop (k + 1)) :
    Trail K (k + 1) out (Ref.follow P u (pulls (toC c) (toC c') n j out)) ∧
      Now K all (k + out.length) (tips.getLastD q) ((Ref.follow P u (pulls (toC c) (toC c') n j out)).getLastD u) := by
  induction h generalizing k u out j with
  | done =>
    cases hs
    exact ⟨.nil, hnow⟩
  | half h ih => exact ih hs hj hnow hpre
  | @step dt q b tips ht hb h ih =>
    obtain ⟨r', out', hr, hs', rfl⟩ := List.forall₂_cons_left_iff.1 hs
    obtain ⟨hr', hpre⟩ := prefix_drop hpre
    obtain ⟨r, hk, hqr⟩ := hnow.at_
    have h0 : 0 ≤ 10 * eps * R := mul_nonneg (by norm_num [eps]) hR
    have hnew := hK.step (z := toC c') hnow.kept hk hr' hqr hr
      ⟨hc'.finx, hc'.finy, hc'.x, hc'.y, by simpa [toC] using h0, by simpa [toC] using h0⟩ hb
    rw [pulls, if_neg (by omega)]
    obtain ⟨g1, g2⟩ := ih hs' (j := j + 1) (by omega) ⟨⟨r', hr', hr⟩, hnew⟩ hpre
    refine ⟨.cons b hr hnew g1, ?_⟩
    rw [Ref.follow, List.getLastD_cons, List.getLastD_cons, List.length_cons, show k + (out'.length + 1) = k + 1 + out'.length by omega]
    exact g2

end Fl

/-- The number of steps of a path. -/
theorem SpringPath.length {F D : Type} [Scalar F] [Scalar D] [Arith F D] {pp : PositionModelerParams F D} {x₀ x₁ : Vec2 F} {t₀ t₁ : D} {n i : ℤ}
    {q : TipState F D} {tips : List (TipState F D)} (h : SpringPath pp x₀ t₀ x₁ t₁ n i q tips) (hi : i ≤ n + 1) :
    (tips.length : ℤ) = n + 1 - i := by
  induction h with
  | done h => simp; omega
  | step hi' ht hb h ih =>
    have := ih (by omega)
    push_cast [List.length_cons]
    omega

theorem SpringPath.toNat {F D : Type} [Scalar F] [Scalar D] [Arith F D] {pp : PositionModelerParams F D} {x₀ x₁ : Vec2 F} {t₀ t₁ : D} {n : ℤ}
    {q : TipState F D} {tips : List (TipState F D)} (h : SpringPath pp x₀ t₀ x₁ t₁ n 1 q tips) : n.toNat = tips.length := by
  by_cases hn : 0 ≤ n
  · have := h.length (by omega)
    omega
  · cases h with
    | done h => simp; omega
    | step hi _ _ _ => omega

namespace Fl
variable [Libm]
variable {p : StrokeModelParams (Fl f32) (Fl f64)} {P : Ref.Params} {R : ℝ} {all : List (Result (Fl f32) (Fl f64))}
  {K : ℕ → TipState (Fl f32) (Fl f64) → Ref.Tip → Prop} {es : List (Event (Fl f32) (Fl f64))} {q : TipState (Fl f32) (Fl f64)}
  {last : Option (Input (Fl f32) (Fl f64) × Vec2 (Fl f32))}

theorem Kept.springs (hK : Kept p.position P R all K) (hR : 1 / 2 ^ 80 ≤ R ∧ R ≤ 2 ^ 110) (hw : p.wobble.isEnabled = false)
    (h : Springs SameMotion p es last q) (hpre : resultsOf es <+: all) (hin : ∀ i ∈ acceptedOf es, InReach R i.position)
    (hlen : ∀ e ∈ es, (e.results.getD []).length ≤ 2 ^ 20) :
    ∃ z us u k, Shadow P es z us ∧ Trail K 0 (resultsOf es) us ∧ us.getLast? = some u ∧ (resultsOf es).length = k + 1 ∧ Now K all k q u ∧
      ∀ prev c, last = some (prev, c) → InReach R c ∧ z = toC c := by
  have hR0 : 0 ≤ R := le_trans (by positivity) hR.1
  -- an input with results
  have next : ∀ {es : List (Event (Fl f32) (Fl f64))} {i : Input (Fl f32) (Fl f64)} {out : List (Result (Fl f32) (Fl f64))},
      resultsOf (es ++ [⟨i, some out⟩]) <+: all → (∀ j ∈ acceptedOf (es ++ [⟨i, some out⟩]), InReach R j.position) →
      (∀ e ∈ es ++ [⟨i, some out⟩], (e.results.getD []).length ≤ 2 ^ 20) →
      resultsOf es <+: all ∧ out <+: all.drop (resultsOf es).length ∧ (∀ j ∈ acceptedOf es, InReach R j.position) ∧ InReach R i.position ∧
        (∀ e ∈ es, (e.results.getD []).length ≤ 2 ^ 20) ∧ out.length ≤ 2 ^ 20 := by
    intro es i out h1 h2 h3
    rw [resultsOf_append] at h1
    rw [acceptedOf_append] at h2
    refine ⟨(List.prefix_append _ _).trans h1, ?_, fun j hj => h2 j (by simp [hj]), h2 i (by simp), fun e he => h3 e (by simp [he]), ?_⟩
    · obtain ⟨t, ht⟩ := h1
      refine ⟨t, ?_⟩
      rw [← ht, List.append_assoc, List.drop_left]
    · simpa using h3 ⟨i, some out⟩ (by simp)
  induction h with
  | @down i q r he hx hv ha ht hr =>
    have hre : resultsOf [(⟨i, some [r]⟩ : Event (Fl f32) (Fl f64))] = [r] := rfl
    rw [hre] at hpre
    have hi := hin i (by simp [acceptedOf])
    have h0 : all[0]? = some r := by
      obtain ⟨t, ht⟩ := hpre
      rw [← ht]; rfl
    have hs := hK.start h0 hr (by rw [hx]; exact hi) hv ha
    rw [hx] at hs
    refine ⟨spot i, _, _, 0, .down he, ?_, rfl, by rw [hre]; rfl, ⟨⟨r, h0, hr⟩, hs⟩, ?_⟩
    · rw [hre]
      exact .cons q hr hs .nil
    · intro prev c hc
      obtain ⟨rfl, rfl⟩ := Prod.mk.inj (Option.some.inj hc)
      exact ⟨hi, rfl⟩
  | @move es i prev c c' q n tips out h he hc ht hr ih =>
    obtain ⟨p1, p2, p3, p4, p5, p6⟩ := next hpre hin hlen
    obtain ⟨z, us, u, k, s1, s2, s3, s4, s5, s6⟩ := ih p1 p3 p5
    obtain ⟨c1, rfl⟩ := s6 prev c rfl
    obtain rfl := hc hw
    rw [s4] at p2
    have hn := ht.toNat
    have hl := hr.length_eq
    obtain ⟨g1, g2⟩ := hK.path hR c1 p4 ht hr (le_refl _) (by omega) s5 p2
    rw [hn, hl, Int.toNat_one] at g1 g2
    refine ⟨_, _, _, k + out.length, .next s1 s3 (le_refl _) (.inl ⟨he, rfl⟩), ?_, ?_, ?_, g2, ?_⟩
    · rw [resultsOf_append]
      refine s2.append ?_
      rw [s4, zero_add]
      exact g1
    · exact getLast?_append_D s3
    · rw [resultsOf_append, List.length_append, s4]; omega
    · intro prev' c' hc'
      obtain ⟨rfl, rfl⟩ := Prod.mk.inj (Option.some.inj hc')
      exact ⟨p4, rfl⟩
  | @late es i prev c q h he ih =>
    have e1 : resultsOf (es ++ [⟨i, none⟩]) = resultsOf es := by simp [resultsOf]
    have e2 : acceptedOf (es ++ [⟨i, none⟩]) = acceptedOf es := by simp [acceptedOf]
    rw [e1] at hpre
    rw [e2] at hin
    obtain ⟨z, us, u, k, s1, s2, s3, s4, s5, s6⟩ := ih hpre hin (fun e he => hlen e (by simp [he]))
    exact ⟨z, us, u, k, .late s1 he, by rwa [e1], s3, by rwa [e1], s5, s6⟩
  | @up es i prev c q n tips rest out h he ht hrest hne hr ih =>
    obtain ⟨p1, p2, p3, p4, p5, p6⟩ := next hpre hin hlen
    obtain ⟨z, us, u, k, s1, s2, s3, s4, s5, s6⟩ := ih p1 p3 p5
    obtain ⟨c1, rfl⟩ := s6 prev c rfl
    rw [s4] at p2
    obtain ⟨out₁, out₂, r1, r2, rfl⟩ := forall₂_append_left hr
    have hn := ht.toNat
    have hl := r1.length_eq
    rw [List.length_append] at p6
    have p7 : out₁ <+: all.drop (k + 1) := (List.prefix_append _ _).trans p2
    have p8 : out₂ <+: all.drop (k + out₁.length + 1) := by
      obtain ⟨t, ht⟩ := p2
      refine ⟨t, ?_⟩
      rw [show k + out₁.length + 1 = (k + 1) + out₁.length by omega, ← List.drop_drop, ← ht, List.append_assoc, List.drop_left]
    obtain ⟨g1, g2⟩ := hK.path hR c1 p4 ht r1 (le_refl _) (by omega) s5 p7
    rw [hn, hl, Int.toNat_one] at g1 g2
    obtain ⟨f1, f2⟩ := hK.rest hR0 (c := c) p4 hrest r2 (n := out₁.length) (j := 1 + out₁.length) (by omega) g2 p8
    refine ⟨_, _, _, k + out₁.length + out₂.length, .next (n := out₁.length) s1 s3 (by simp) (.inr he), ?_, ?_, ?_, f2, by simp⟩
    · rw [resultsOf_append, pulls_append, Ref.follow_append]
      refine s2.append ?_
      rw [s4, zero_add]
      refine g1.append ?_
      rw [show k + 1 + out₁.length = k + out₁.length + 1 by omega]
      exact f1
    · rw [pulls_append, Ref.follow_append, ← List.append_assoc]
      exact getLast?_append_D (getLast?_append_D s3)
    · rw [resultsOf_append, List.length_append, List.length_append, s4]; omega
  | @stop es i prev c q b n r h he ht hb hr ih =>
    obtain ⟨p1, p2, p3, p4, p5, p6⟩ := next hpre hin hlen
    obtain ⟨z, us, u, k, s1, s2, s3, s4, s5, s6⟩ := ih p1 p3 p5
    obtain ⟨c1, rfl⟩ := s6 prev c rfl
    rw [s4] at p2
    have key : Trail K (k + 1) [r] (Ref.follow P u (pulls (toC c) (toC i.position) 0 1 [r])) ∧
        Now K all (k + 1) b ((Ref.follow P u (pulls (toC c) (toC i.position) 0 1 [r])).getLastD u) := by
      rcases hb with rfl | hb
      · obtain ⟨r₀, hk, hqr⟩ := s5.at_
        obtain ⟨hr', -⟩ := prefix_drop p2
        have hnew := hK.again (z := toC i.position) s5.kept hk hr' hqr hr
        exact ⟨.cons b hr hnew .nil, ⟨⟨r, hr', hr⟩, hnew⟩⟩
      · exact hK.rest hR0 (c := c) p4 hb (.cons hr .nil) (n := 0) (j := 1) (by omega) s5 p2
    refine ⟨_, _, _, k + 1, .next (n := 0) s1 s3 (by simp) (.inr he), ?_, ?_, ?_, key.2, by simp⟩
    · rw [resultsOf_append]
      refine s2.append ?_
      rw [s4, zero_add]
      exact key.1
    · exact getLast?_append_D s3
    · rw [resultsOf_append, List.length_append, s4]; rfl

/-! ## Invariants -/

variable {M d h ω : ℝ} {pp : PositionModelerParams (Fl f32) (Fl f64)} {w : ℕ → ℝ}

/-- The setting of the invariants. -/
structure Setting (pp : PositionModelerParams (Fl f32) (Fl f64)) (h R ω δ : ℝ) (all : List (Result (Fl f32) (Fl f64))) (w : ℕ → ℝ) : Prop where
  mass : Finite pp.springMassConstant
  drag : Finite pp.dragConstant
  suits : Suits (Fl.num pp.springMassConstant) (Fl.num pp.dragConstant) h R
  freq : 0 < ω ∧ ω ^ 2 = (Fl.num pp.springMassConstant)⁻¹
  fade : δ = (springOf (Fl.num pp.springMassConstant) (Fl.num pp.dragConstant) h).decay / 10
  paced : Paced h all
  weights : Weights δ all w

/-- The tip `q` of the result number `k` and the exact tip `u` beside it. -/
structure Held (P : Ref.Params) (E B : ℝ) (w : ℕ → ℝ) (k : ℕ) (q : TipState (Fl f32) (Fl f64)) (u : Ref.Tip) : Prop where
  px : Finite q.position.x
  py : Finite q.position.y
  vx : Finite q.velocity.x
  vy : Finite q.velocity.y
  acc : InReach B q.acceleration
  time : u.time = Fl.num q.time
  x : Ref.gauge P (Fl.num q.position.x - u.pos.re) (Fl.num q.velocity.x - u.vel.re) ≤ w k * E
  y : Ref.gauge P (Fl.num q.position.y - u.pos.im) (Fl.num q.velocity.y - u.vel.im) ≤ w k * E

omit [Libm] in
theorem spring_coords (P : Ref.Params) (u : Ref.Tip) (z : ℂ) (t : ℝ) :
    (Ref.spring P u (z, t)).pos.re = u.pos.re + (t - u.time) * (u.vel.re + (t - u.time) * (P.mass⁻¹ * (z.re - u.pos.re) - P.drag * u.vel.re)) ∧
    (Ref.spring P u (z, t)).pos.im = u.pos.im + (t - u.time) * (u.vel.im + (t - u.time) * (P.mass⁻¹ * (z.im - u.pos.im) - P.drag * u.vel.im)) ∧
    (Ref.spring P u (z, t)).vel.re = u.vel.re + (t - u.time) * (P.mass⁻¹ * (z.re - u.pos.re) - P.drag * u.vel.re) ∧
    (Ref.spring P u (z, t)).vel.im = u.vel.im + (t - u.time) * (P.mass⁻¹ * (z.im - u.pos.im) - P.drag * u.vel.im) ∧
    (Ref.spring P u (z, t)).time = t := by
  simp [Ref.spring]
  constructor <;> ring

omit [Libm] in
theorem _root_.Ink.Paced.pair {out : List (Result (Fl f32) (Fl f64))} (hp : Paced h out) {k : ℕ} {r r' : Result (Fl f32) (Fl f64)}
    (hk : out[k]? = some r) (hk' : out[k + 1]? = some r') :
    Finite r.time ∧ Finite r'.time ∧ 0 ≤ Fl.num r'.time - Fl.num r.time ∧ Fl.num r'.time - Fl.num r.time ≤ h := by
  obtain ⟨h1, rfl⟩ := List.getElem?_eq_some_iff.1 hk
  obtain ⟨h2, rfl⟩ := List.getElem?_eq_some_iff.1 hk'
  exact ⟨hp.finite _ (List.getElem_mem _), hp.finite _ (List.getElem_mem _), List.isChain_iff_getElem.1 hp.gaps k h2⟩

variable {δ E B X : ℝ} {k : ℕ} {q b : TipState (Fl f32) (Fl f64)} {r r' : Result (Fl f32) (Fl f64)} {u : Ref.Tip} {A : Vec2 (Fl f32)} {z : ℂ}

theorem Held.step (S : Setting pp h R ω δ all w) (hP : P = springOf (Fl.num pp.springMassConstant) (Fl.num pp.dragConstant) h)
    (hsc : Scales ω (Fl.num pp.dragConstant) X (ω * X)) (hRX : 101 / 100 * R ≤ X) (hE0 : 0 ≤ E) (hE : 30 * eps * (ω * X) ≤ E)
    (hB : 203 / 100 * (ω * (ω * X)) + 112 / 100 * (Fl.num pp.dragConstant * (ω * X)) ≤ B)
    (hq : Held P E B w k q u) (hx : |Fl.num q.position.x| ≤ X) (hy : |Fl.num q.position.y| ≤ X)
    (hvx : |Fl.num q.velocity.x| ≤ 11 / 10 * (ω * X)) (hvy : |Fl.num q.velocity.y| ≤ 11 / 10 * (ω * X)) (hk : all[k]? = some r)
    (hk' : all[k + 1]? = some r') (hr : SameMotion q r) (hr' : SameMotion b r') (hA : NearAnchor R A z) (hb : Sprung pp A q b) :
    Held P E B w (k + 1) b (Ref.spring P u (z, Fl.num r'.time)) := by
  obtain ⟨t1, t2, t3, t4⟩ := S.paced.pair hk hk'
  have hw := S.weights.next k r r' hk hk'
  obtain ⟨q1, q2⟩ := hr.time.num t1
  obtain ⟨b1, b2⟩ := hr'.time.num t2
  rw [q2, b2] at t3 t4 hw
  obtain ⟨x1, x2, x3, x5, x4⟩ := coord_step S.mass S.drag S.suits S.freq.1 S.freq.2 hP hsc hRX hq.px hq.vx hx hvx hq.x hA.finx hA.re hA.x q1 b1 t3 t4
    hb.ax hb.vx hb.px
  obtain ⟨y1, y2, y3, y5, y4⟩ := coord_step S.mass S.drag S.suits S.freq.1 S.freq.2 hP hsc hRX hq.py hq.vy hy hvy hq.y hA.finy hA.im hA.y q1 b1 t3 t4
    hb.ay hb.vy hb.py
  obtain ⟨e1, e2, e3, e4, e5⟩ := spring_coords P u z (Fl.num r'.time)
  rw [hq.time, b2] at e1 e2 e3 e4
  have hδ := S.fade
  rw [← hP] at hδ
  have hfin : (1 - P.decay * (Fl.num b.time - Fl.num q.time) / 10) * (w k * E) + 30 * eps * (ω * X) ≤ w (k + 1) * E := by
    have h1 := mul_le_mul_of_nonneg_right hw hE0
    rw [hδ] at h1
    have h2 : ((1 - P.decay / 10 * (Fl.num b.time - Fl.num q.time)) * w k + 1) * E =
      (1 - P.decay * (Fl.num b.time - Fl.num q.time) / 10) * (w k * E) + E := by ring
    rw [h2] at h1
    linarith
  refine ⟨x3, y3, x2, y2, ⟨x1, y1, x5.trans hB, y5.trans hB⟩, by rw [e5, b2], ?_, ?_⟩
  · rw [b2, e1, e3]; exact x4.trans hfin
  · rw [b2, e2, e4]; exact y4.trans hfin

omit [Libm] in
theorem Held.again (S : Setting pp h R ω δ all w) (hE0 : 0 ≤ E)
    (hq : Held P E B w k q u) (hk : all[k]? = some r) (hk' : all[k + 1]? = some r') (hr : SameMotion q r) (hr' : SameMotion q r') :
    Held P E B w (k + 1) q (Ref.spring P u (z, Fl.num r'.time)) ∧ (Ref.spring P u (z, Fl.num r'.time)).pos = u.pos ∧
      (Ref.spring P u (z, Fl.num r'.time)).vel = u.vel := by
  obtain ⟨t1, t2, t3, t4⟩ := S.paced.pair hk hk'
  have hw := S.weights.next k r r' hk hk'
  obtain ⟨q1, q2⟩ := hr.time.num t1
  obtain ⟨b1, b2⟩ := hr'.time.num t2
  rw [q2, b2, sub_self, mul_zero, sub_zero, one_mul] at hw
  have hw' : w k * E ≤ w (k + 1) * E := mul_le_mul_of_nonneg_right (by linarith) hE0
  have h0 : Fl.num r'.time - u.time = 0 := by rw [b2, hq.time, sub_self]
  have e1 : (Ref.spring P u (z, Fl.num r'.time)).pos = u.pos := by simp [Ref.spring, h0]
  have e2 : (Ref.spring P u (z, Fl.num r'.time)).vel = u.vel := by simp [Ref.spring, h0]
  refine ⟨⟨hq.px, hq.py, hq.vx, hq.vy, hq.acc, by rw [b2]; rfl, ?_, ?_⟩, e1, e2⟩
  · rw [e1, e2]; exact hq.x.trans hw'
  · rw [e1, e2]; exact hq.y.trans hw'

omit [Libm] in
theorem Held.start (S : Setting pp h R ω δ all w) (hE0 : 0 ≤ E) (hB0 : 0 ≤ B) (hk : all[0]? = some r) (hr : SameMotion q r) (hx : InReach R q.position)
    (hv : q.velocity = ⟨0, 0⟩) (ha : q.acceleration = ⟨0, 0⟩) : Held P E B w 0 q ⟨toC q.position, 0, 0, Fl.num r.time⟩ := by
  have ht : Finite r.time := S.paced.finite r (List.mem_of_getElem? hk)
  have h0 : 0 ≤ w 0 * E := mul_nonneg (S.weights.nonneg 0) hE0
  refine ⟨hx.finx, hx.finy, ?_, ?_, ?_, (hr.time.num ht).2, ?_, ?_⟩
  · rw [hv]; exact finite_zero
  · rw [hv]; exact finite_zero
  · rw [ha]; exact ⟨finite_zero, finite_zero, by simpa [num_zero] using hB0, by simpa [num_zero] using hB0⟩
  · rw [hv]; simpa [toC, Ref.gauge_zero, num_zero] using h0
  · rw [hv]; simpa [toC, Ref.gauge_zero, num_zero] using h0

/-- The invariant for the size of the results. -/
theorem kept_bounded (S : Setting pp h R ω δ all w) (hP : P = springOf (Fl.num pp.springMassConstant) (Fl.num pp.dragConstant) h)
    (hw : ∀ k, k < all.length → w k ≤ 2 ^ 18) :
    Kept pp P R all fun k q u => Held P (Ref.peak P R / 2 ^ 18) (5 * ((ω + Fl.num pp.dragConstant) * Ref.peak P R)) w k q u ∧
      Ref.gauge P u.pos.re u.vel.re ≤ Ref.peak P R ∧ Ref.gauge P u.pos.im u.vel.im ≤ Ref.peak P R := by
  obtain ⟨hω, hωM⟩ := S.freq
  obtain ⟨p0, p1, p2⟩ := S.suits.peak hω hωM
  have hsc := S.suits.scales hω hωM
  have hst := S.suits.stable
  have hval := S.suits.valid
  have hωM' : ω ^ 2 = (springOf (Fl.num pp.springMassConstant) (Fl.num pp.dragConstant) h).mass⁻¹ := hωM
  have hshort := fun {s : ℝ} (h1 : 0 ≤ s) (h2 : s ≤ h) => (S.suits.short hωM h1 h2).2.2.2
  rw [← hP] at p0 p1 p2 hsc hst hval hωM' hshort
  have hE0 : 0 ≤ Ref.peak P R / 2 ^ 18 := by positivity
  obtain ⟨-, hd, hR⟩ := S.suits.pos
  constructor
  · intro q r hk hr hx hv ha
    refine ⟨Held.start S hE0 (by positivity) hk hr hx hv ha, ?_, ?_⟩
    · refine (Ref.gauge_le hst hval hω.le hωM' _ _).trans ?_
      have := mul_le_mul_of_nonneg_left hx.x hω.le
      simp only [toC, Complex.zero_re, abs_zero, zero_add]
      nlinarith
    · refine (Ref.gauge_le hst hval hω.le hωM' _ _).trans ?_
      have := mul_le_mul_of_nonneg_left hx.y hω.le
      simp only [toC, Complex.zero_im, abs_zero, zero_add]
      nlinarith
  · intro k q b r r' u A z ⟨hq, gx, gy⟩ hk hk' hr hr' hA hb
    have hwk : w k * (Ref.peak P R / 2 ^ 18) ≤ Ref.peak P R := by
      have := mul_le_mul_of_nonneg_right (hw k (List.getElem?_eq_some_iff.1 hk).1) hE0
      linarith
    have hXω : ω * (2 * Ref.peak P R / ω) = 2 * Ref.peak P R := by field_simp
    have hsc' : Scales ω (Fl.num pp.dragConstant) (2 * Ref.peak P R / ω) (ω * (2 * Ref.peak P R / ω)) := by rw [hXω]; exact hsc
    have size : ∀ {x v y w : ℝ}, Ref.gauge P (x - y) (v - w) ≤ Ref.peak P R → Ref.gauge P y w ≤ Ref.peak P R →
        |x| ≤ 2 * Ref.peak P R / ω ∧ |v| ≤ 11 / 10 * (ω * (2 * Ref.peak P R / ω)) := by
      intro x v y w h1 h2
      have h3 := Ref.gauge_add hval (x - y) (v - w) y w
      rw [sub_add_cancel, sub_add_cancel] at h3
      rw [hXω, le_div_iff₀ hω, mul_comm |x|]
      have h4 := Ref.pos_le_gauge hst hval hωM' x v
      have h5 := Ref.vel_le_gauge hst hval x v
      constructor <;> linarith
    obtain ⟨sx, svx⟩ := size (hq.x.trans hwk) gx
    obtain ⟨sy, svy⟩ := size (hq.y.trans hwk) gy
    have hRX : 101 / 100 * R ≤ 2 * Ref.peak P R / ω := by
      rw [le_div_iff₀ hω]
      nlinarith [mul_pos hω hR]
    refine ⟨Held.step S hP hsc' hRX hE0 ?_ ?_ hq sx sy svx svy hk hk' hr hr' hA hb, ?_, ?_⟩
    · rw [hXω, eps]
      norm_num
      linarith
    · rw [hXω]
      have := mul_pos hω p0
      have := mul_pos hd p0
      linarith
    all_goals
      obtain ⟨t1, t2, t3, t4⟩ := S.paced.pair hk hk'
      obtain ⟨q1, q2⟩ := hr.time.num t1
      obtain ⟨e1, e2, e3, e4, e5⟩ := spring_coords P u z (Fl.num r'.time)
      rw [hq.time, ← q2] at e1 e2 e3 e4
    · rw [e1, e3]; exact Ref.gauge_step_off hst hval t3 (hshort t3 t4) hA.re gx
    · rw [e2, e4]; exact Ref.gauge_step_off hst hval t3 (hshort t3 t4) hA.im gy
  · intro k q r r' u z ⟨hq, gx, gy⟩ hk hk' hr hr'
    obtain ⟨h1, h2, h3⟩ := Held.again (z := z) S hE0 hq hk hk' hr hr'
    exact ⟨h1, by rw [h2, h3]; exact gx, by rw [h2, h3]; exact gy⟩

/-- The invariant for the rounding errors. -/
theorem kept_near (S : Setting pp h R ω δ all w) (hP : P = springOf (Fl.num pp.springMassConstant) (Fl.num pp.dragConstant) h)
    (hpos : ∀ r ∈ all, InReach R r.position) (hvel : ∀ r ∈ all, InReach (11 / 10 * (ω * R)) r.velocity) :
    Kept pp P R all (Held P (ω * R / 2 ^ 19) (5 * ((ω + Fl.num pp.dragConstant) * (ω * R))) w) := by
  obtain ⟨hω, hωM⟩ := S.freq
  obtain ⟨-, hd, hR⟩ := S.suits.pos
  have hE0 : 0 ≤ ω * R / 2 ^ 19 := by positivity
  constructor
  · intro q r hk hr hx hv ha
    exact Held.start S hE0 (by positivity) hk hr hx hv ha
  · intro k q b r r' u A z hq hk hk' hr hr' hA hb
    have h1 := hpos r (List.mem_of_getElem? hk)
    have h2 := hvel r (List.mem_of_getElem? hk)
    have hωR := mul_pos hω hR
    refine Held.step S hP (S.suits.scales' hω hωM) (le_refl _) hE0 ?_ ?_ hq ?_ ?_ ?_ ?_ hk hk' hr hr' hA hb
    · rw [eps]
      norm_num
      linarith
    · have := mul_pos hω hωR
      have := mul_pos hd hωR
      linarith
    · rw [← (hr.px.num h1.finx).2]; linarith [h1.x]
    · rw [← (hr.py.num h1.finy).2]; linarith [h1.y]
    · rw [← (hr.vx.num h2.finx).2]; linarith [h2.x]
    · rw [← (hr.vy.num h2.finy).2]; linarith [h2.y]
  · intro k q r r' u z hq hk hk' hr hr'
    exact (Held.again (z := z) S hE0 hq hk hk' hr hr').1

end Fl

/-! ## The properties -/

section Weights
variable {h δ : ℝ} {out : List (Result (Fl f32) (Fl f64))}

theorem Weights.count (hp : Paced h out) (hδ : 0 ≤ δ) : Weights δ out fun k => (k : ℝ) := by
  refine ⟨fun k => by positivity, fun k r r' hk hk' => ?_⟩
  obtain ⟨-, -, h1, -⟩ := hp.pair hk hk'
  have := mul_nonneg (mul_nonneg hδ h1) (Nat.cast_nonneg (α := ℝ) k)
  push_cast
  linarith

theorem Weights.even {g : ℝ} (hg : 0 < g) (hgap : out.IsChain fun r r' => g ≤ Fl.num r'.time - Fl.num r.time) (hδ : 0 < δ) :
    Weights δ out fun _ => 1 / (δ * g) := by
  refine ⟨fun k => by positivity, fun k r r' hk hk' => ?_⟩
  obtain ⟨h1, rfl⟩ := List.getElem?_eq_some_iff.1 hk
  obtain ⟨h2, rfl⟩ := List.getElem?_eq_some_iff.1 hk'
  have h3 := List.isChain_iff_getElem.1 hgap k h2
  have h4 : 1 ≤ δ * (Fl.num out[k + 1].time - Fl.num out[k].time) * (1 / (δ * g)) := by
    rw [mul_one_div, le_div_iff₀ (by positivity), one_mul]
    exact mul_le_mul_of_nonneg_left h3 hδ.le
  linarith

end Weights

section Properties
variable [Libm]
variable {ops : List (Op (Fl f32) (Fl f64))} {rs : List (Response (Fl f32) (Fl f64))} {m : StrokeModeler (Fl f32) (Fl f64)}

omit [Libm] in
/-- The exact tips depend on the mass and the drag constant only. -/
theorem Shadow.congr {P Q : Ref.Params} (hm : P.mass = Q.mass) (hd : P.drag = Q.drag) {es : List (Event (Fl f32) (Fl f64))} {z : ℂ}
    {us : List Ref.Tip} (h : Shadow P es z us) : Shadow Q es z us := by
  have e1 : Ref.spring P = Ref.spring Q := by
    funext q i
    simp only [Ref.spring, hm, hd]
  have e2 : ∀ l q, Ref.follow P q l = Ref.follow Q q l := by
    intro l
    induction l with
    | nil => intro q; rfl
    | cons i l ih => intro q; rw [Ref.follow, Ref.follow, e1, ih]
  induction h with
  | down he => exact .down he
  | next h hu hn he ih => rw [e2]; exact .next ih hu hn he
  | late h he ih => exact .late ih he

omit [Libm] in
theorem fade_eq (M d h : ℝ) : fade M d = (springOf M d h).decay / 10 := by
  unfold fade Ref.Params.decay springOf
  simp only
  rw [div_div]
  ring_nf

omit [Libm] in
theorem Suits.root {M d h R : ℝ} (hS : Suits M d h R) : 0 < (Real.sqrt M)⁻¹ ∧ (Real.sqrt M)⁻¹ ^ 2 = M⁻¹ := by
  have hM := hS.pos.1
  exact ⟨inv_pos.2 (Real.sqrt_pos.2 hM), by rw [inv_pow, Real.sq_sqrt hM.le]⟩

omit [Libm] in
theorem Suits.peak_le {M d h R : ℝ} (hS : Suits M d h R) : Ref.peak (springOf M d h) R ≤ (Real.sqrt M)⁻¹ * reach M d R := by
  obtain ⟨hM, hd, hR⟩ := hS.pos
  have hs := Real.sqrt_pos.2 hM
  have hr : 0 < reach M d R := by unfold reach; positivity
  refine (abs_le_of_sq_le_sq' ?_ (by positivity)).2
  rw [peak_eq hS]
  have e1 : (Real.sqrt M)⁻¹ * reach M d R = 26 * (((M * d)⁻¹ + d) * R) := by
    unfold reach
    have : M = Real.sqrt M ^ 2 := (Real.sq_sqrt hM.le).symm
    rw [this]
    generalize Real.sqrt M = s at *
    rw [Real.sqrt_sq hs.le]
    field_simp
  rw [e1, mul_pow]
  nlinarith [sq_nonneg (((M * d)⁻¹ + d) * R)]

namespace Fl

/-- The steps so far put together. -/
theorem _root_.Ink.Calm.trail {p : StrokeModelParams (Fl f32) (Fl f64)} {h R : ℝ} (hses : Session ops rs m) (hr : Regular ops rs)
    (hp : (known ops rs).params = some p) (hne : strokeOf ops rs ≠ []) (hc : Calm p h R (strokeOf ops rs))
    {K : ℕ → TipState (Fl f32) (Fl f64) → Ref.Tip → Prop} {P : Ref.Params} (hK : Kept p.position P R (resultsOf (strokeOf ops rs)) K) :
    ∃ z us, Shadow P (strokeOf ops rs) z us ∧ Trail K 0 (resultsOf (strokeOf ops rs)) us := by
  obtain ⟨e, es, hs⟩ := List.exists_cons_of_ne_nil hne
  obtain ⟨f1, f2, f3⟩ := hc.bare e (by rw [hs]; rfl)
  obtain ⟨last, q, hq⟩ := C36_spring_float hses hr hp hc.loop hc.normal hs f1 f2 f3
  have hR : 1 / 2 ^ 80 ≤ R ∧ R ≤ 2 ^ 110 := ⟨le_trans (by norm_num) hc.suits.size.1, hc.suits.size.2.trans (by norm_num)⟩
  obtain ⟨z, us, u, k, s1, s2, -⟩ := hK.springs hR hc.wobble hq (List.prefix_refl _) hc.inputs hc.few
  exact ⟨z, us, s1, s2⟩

omit [Libm] in
theorem _root_.Ink.Calm.setting {p : StrokeModelParams (Fl f32) (Fl f64)} {h R : ℝ} {es : List (Event (Fl f32) (Fl f64))} (hc : Calm p h R es) {w : ℕ → ℝ}
    (hw : Weights (fade (num p.position.springMassConstant) (num p.position.dragConstant)) (resultsOf es) w) :
    Setting p.position h R (Real.sqrt (num p.position.springMassConstant))⁻¹
      (fade (num p.position.springMassConstant) (num p.position.dragConstant)) (resultsOf es) w :=
  ⟨hc.mass, hc.drag, hc.suits, hc.suits.root, fade_eq _ _ _, hc.paced, hw⟩

end Fl

/-- The tips of the spring stay near the inputs. -/
theorem springs_bounded {p : StrokeModelParams (Fl f32) (Fl f64)} {es : List (Event (Fl f32) (Fl f64))}
    {last : Option (Input (Fl f32) (Fl f64) × Vec2 (Fl f32))} {q : TipState (Fl f32) (Fl f64)} (hs : Springs SameMotion p es last q)
    (hwb : p.wobble.isEnabled = false) {s R : ℝ} (hmass : Finite p.position.springMassConstant) (hdrag : Finite p.position.dragConstant)
    (hsuits : Suits (num p.position.springMassConstant) (num p.position.dragConstant) s R) (hin : ∀ i ∈ acceptedOf es, InReach R i.position)
    (hfew : ∀ e ∈ es, (e.results.getD []).length ≤ 2 ^ 20) (hpaced : Paced s (resultsOf es)) {w : ℕ → ℝ}
    (hw : Weights (fade (num p.position.springMassConstant) (num p.position.dragConstant)) (resultsOf es) w)
    (hlight : ∀ k, k < (resultsOf es).length → w k ≤ 2 ^ 18) :
    ∀ r ∈ resultsOf es,
      InReach (2 * reach (num p.position.springMassConstant) (num p.position.dragConstant) R) r.position ∧
      InReach (11 / 5 * ((Real.sqrt (num p.position.springMassConstant))⁻¹ *
        reach (num p.position.springMassConstant) (num p.position.dragConstant) R)) r.velocity ∧
      InReach (5 * (((Real.sqrt (num p.position.springMassConstant))⁻¹ + num p.position.dragConstant) *
        ((Real.sqrt (num p.position.springMassConstant))⁻¹ *
          reach (num p.position.springMassConstant) (num p.position.dragConstant) R))) r.acceleration := by
  have hR : 1 / 2 ^ 80 ≤ R ∧ R ≤ 2 ^ 110 := ⟨le_trans (by norm_num) hsuits.size.1, hsuits.size.2.trans (by norm_num)⟩
  obtain ⟨z, us, u, k, -, ht, -⟩ := (kept_bounded (w := w) ⟨hmass, hdrag, hsuits, hsuits.root, fade_eq _ _ _, hpaced, hw⟩ rfl hlight).springs hR hwb hs
    (List.prefix_refl _) hin hfew
  intro r hmem
  obtain ⟨k, hk, rfl⟩ := List.getElem_of_mem hmem
  have hk' : k < us.length := by rw [ht.length]; exact hk
  obtain ⟨q, hqr, hq, gx, gy⟩ := ht.get (List.getElem?_eq_getElem hk) (List.getElem?_eq_getElem hk')
  obtain ⟨hω, hωM⟩ := hsuits.root
  have hst := hsuits.stable
  have hval := hsuits.valid
  have hpk := hsuits.peak_le
  have hωM' : (Real.sqrt (num p.position.springMassConstant))⁻¹ ^ 2 =
    (springOf (num p.position.springMassConstant) (num p.position.dragConstant) s).mass⁻¹ := hωM
  have p0 := (hsuits.peak hω hωM).1
  generalize springOf (num p.position.springMassConstant) (num p.position.dragConstant) s = P at *
  generalize reach (num p.position.springMassConstant) (num p.position.dragConstant) R = ρ at *
  generalize (Real.sqrt (num p.position.springMassConstant))⁻¹ = ω at *
  rw [zero_add] at hq
  have hwk : w k * (Ref.peak P R / 2 ^ 18) ≤ Ref.peak P R := by
    have := mul_le_mul_of_nonneg_right (hlight k hk) (by positivity : 0 ≤ Ref.peak P R / 2 ^ 18)
    linarith
  have size : ∀ {x v y w : ℝ}, Ref.gauge P (x - y) (v - w) ≤ Ref.peak P R → Ref.gauge P y w ≤ Ref.peak P R →
      |x| ≤ 2 * ρ ∧ |v| ≤ 11 / 5 * (ω * ρ) := by
    intro x v y w h1 h2
    have h3 := Ref.gauge_add hval (x - y) (v - w) y w
    rw [sub_add_cancel, sub_add_cancel] at h3
    have h4 := Ref.pos_le_gauge hst hval hωM' x v
    have h5 := Ref.vel_le_gauge hst hval x v
    constructor
    · refine le_of_mul_le_mul_left ?_ hω
      linarith
    · linarith
  obtain ⟨sx, svx⟩ := size (hq.x.trans hwk) gx
  obtain ⟨sy, svy⟩ := size (hq.y.trans hwk) gy
  obtain ⟨a1, b1⟩ := hqr.px.symm.num hq.px
  obtain ⟨a2, b2⟩ := hqr.py.symm.num hq.py
  obtain ⟨a3, b3⟩ := hqr.vx.symm.num hq.vx
  obtain ⟨a4, b4⟩ := hqr.vy.symm.num hq.vy
  rw [b1] at sx
  rw [b2] at sy
  rw [b3] at svx
  rw [b4] at svy
  have hd := hsuits.pos.2.1
  have hacc : 5 * ((ω + num p.position.dragConstant) * Ref.peak P R) ≤ 5 * ((ω + num p.position.dragConstant) * (ω * ρ)) := by gcongr
  obtain ⟨a5, b5⟩ := hqr.ax.symm.num hq.acc.finx
  obtain ⟨a6, b6⟩ := hqr.ay.symm.num hq.acc.finy
  exact ⟨⟨a1, a2, sx, sy⟩, ⟨a3, a4, svx, svy⟩, ⟨a5, a6, by rw [← b5]; exact hq.acc.x.trans hacc, by rw [← b6]; exact hq.acc.y.trans hacc⟩⟩

/-- C62: on floats, the results of a calm stroke are numbers, and they stay near the inputs. -/
theorem C62_bounded_float (h : Session ops rs m) (hr : Regular ops rs) {p : StrokeModelParams (Fl f32) (Fl f64)}
    (hp : (known ops rs).params = some p) (hne : strokeOf ops rs ≠ []) {s R : ℝ} (hc : Calm p s R (strokeOf ops rs)) {w : ℕ → ℝ}
    (hw : Weights (fade (num p.position.springMassConstant) (num p.position.dragConstant)) (resultsOf (strokeOf ops rs)) w)
    (hlight : ∀ k, k < (resultsOf (strokeOf ops rs)).length → w k ≤ 2 ^ 18) :
    ∀ r ∈ resultsOf (strokeOf ops rs),
      InReach (2 * reach (num p.position.springMassConstant) (num p.position.dragConstant) R) r.position ∧
      InReach (11 / 5 * ((Real.sqrt (num p.position.springMassConstant))⁻¹ *
        reach (num p.position.springMassConstant) (num p.position.dragConstant) R)) r.velocity ∧
      InReach (5 * (((Real.sqrt (num p.position.springMassConstant))⁻¹ + num p.position.dragConstant) *
        ((Real.sqrt (num p.position.springMassConstant))⁻¹ *
          reach (num p.position.springMassConstant) (num p.position.dragConstant) R))) r.acceleration := by
  obtain ⟨e, es, hs⟩ := List.exists_cons_of_ne_nil hne
  obtain ⟨f1, f2, f3⟩ := hc.bare e (by rw [hs]; rfl)
  obtain ⟨last, q, hq⟩ := C36_spring_float h hr hp hc.loop hc.normal hs f1 f2 f3
  exact springs_bounded hq hc.wobble hc.mass hc.drag hc.suits hc.inputs hc.few hc.paced hw hlight

/-- C63: on floats, the results of a calm stroke stay near the tips of the exact spring model for the same inputs and times. -/
theorem C63_rounding_float (h : Session ops rs m) (hr : Regular ops rs) {p : StrokeModelParams (Fl f32) (Fl f64)}
    (hp : (known ops rs).params = some p) (hne : strokeOf ops rs ≠ []) {s R : ℝ} (hc : Calm p s R (strokeOf ops rs))
    (hpos : ∀ r ∈ resultsOf (strokeOf ops rs), InReach R r.position)
    (hvel : ∀ r ∈ resultsOf (strokeOf ops rs), InReach (11 / 10 * ((Real.sqrt (num p.position.springMassConstant))⁻¹ * R)) r.velocity) {w : ℕ → ℝ}
    (hw : Weights (fade (num p.position.springMassConstant) (num p.position.dragConstant)) (resultsOf (strokeOf ops rs)) w)
    {P : Ref.Params} (hm : P.mass = num p.position.springMassConstant) (hd : P.drag = num p.position.dragConstant) :
    ∃ z us, Shadow P (strokeOf ops rs) z us ∧ us.length = (resultsOf (strokeOf ops rs)).length ∧
      ∀ k r u, (resultsOf (strokeOf ops rs))[k]? = some r → us[k]? = some u → u.time = num r.time ∧
        |num r.position.x - u.pos.re| ≤ w k * (R / 2 ^ 19) ∧ |num r.position.y - u.pos.im| ≤ w k * (R / 2 ^ 19) ∧
        |num r.velocity.x - u.vel.re| ≤ w k * (11 / 10 * ((Real.sqrt (num p.position.springMassConstant))⁻¹ * R) / 2 ^ 19) ∧
        |num r.velocity.y - u.vel.im| ≤ w k * (11 / 10 * ((Real.sqrt (num p.position.springMassConstant))⁻¹ * R) / 2 ^ 19) := by
  obtain ⟨z, us, hsh, ht⟩ := hc.trail h hr hp hne (kept_near (hc.setting hw) rfl hpos hvel)
  refine ⟨z, us, hsh.congr hm.symm hd.symm, ht.length, ?_⟩
  intro k r u hk hu
  obtain ⟨q, hqr, hq⟩ := ht.get hk hu
  obtain ⟨hω, hωM⟩ := hc.suits.root
  have hst := hc.suits.stable
  have hval := hc.suits.valid
  have hωM' : (Real.sqrt (num p.position.springMassConstant))⁻¹ ^ 2 =
    (springOf (num p.position.springMassConstant) (num p.position.dragConstant) s).mass⁻¹ := hωM
  generalize springOf (num p.position.springMassConstant) (num p.position.dragConstant) s = P' at *
  generalize (Real.sqrt (num p.position.springMassConstant))⁻¹ = ω at *
  rw [zero_add] at hq
  have hrt : Finite r.time := hc.paced.finite r (List.mem_of_getElem? hk)
  have size : ∀ {e v : ℝ}, Ref.gauge P' e v ≤ w k * (ω * R / 2 ^ 19) →
      |e| ≤ w k * (R / 2 ^ 19) ∧ |v| ≤ w k * (11 / 10 * (ω * R) / 2 ^ 19) := by
    intro e v h1
    have h4 := Ref.pos_le_gauge hst hval hωM' e v
    have h5 := Ref.vel_le_gauge hst hval e v
    constructor
    · refine le_of_mul_le_mul_left ?_ hω
      calc ω * |e| ≤ w k * (ω * R / 2 ^ 19) := h4.trans h1
        _ = _ := by ring
    · calc |v| ≤ 11 / 10 * (w k * (ω * R / 2 ^ 19)) := h5.trans (by linarith)
        _ = _ := by ring
  obtain ⟨sx, svx⟩ := size hq.x
  obtain ⟨sy, svy⟩ := size hq.y
  rw [(hqr.px.symm.num hq.px).2] at sx
  rw [(hqr.py.symm.num hq.py).2] at sy
  rw [(hqr.vx.symm.num hq.vx).2] at svx
  rw [(hqr.vy.symm.num hq.vy).2] at svy
  exact ⟨by rw [hq.time, (hqr.time.num hrt).2], sx, sy, svx, svy⟩

end Properties

section Examples
open Ex

namespace Ex

/-- The parameters of the examples without wobble smoothing. -/
def calmParams : StrokeModelParams F32 F64 := { params with wobble := { params.wobble with isEnabled := false } }

/-- A Down, a Move and an Up. -/
def calmOps : List (Op F32 F64) := .resetParams calmParams :: usual.tail

/-- A point with coordinates of at most the given size, in terms of the representation. -/
def within (n : ℕ) (a : Vec2 F32) : Bool :=
  decide (Finite a.x) && decide (Finite a.y) && decide ((Fl.key a.x).natAbs ≤ n * 2 ^ f32.q) && decide ((Fl.key a.y).natAbs ≤ n * 2 ^ f32.q)

/-- The times are in order and at most 1/170 apart. -/
def pacedCheck : List (Result F32 F64) → Bool
  | r :: r' :: out => decide (Finite r.time) && decide (Fl.key r.time ≤ Fl.key r'.time) &&
      decide ((Fl.key r'.time - Fl.key r.time) * 170 ≤ 2 ^ f64.q) && pacedCheck (r' :: out)
  | [r] => decide (Finite r.time)
  | [] => true

/-- What the examples check. -/
def calmCheck (es : List (Event F32 F64)) : Bool :=
  (match es with
    | e :: _ => isUnknown e.input.pressure && isUnknown e.input.tilt && isUnknown e.input.orientation
    | [] => false) &&
  (acceptedOf es).all (fun i => within 8 i.position) && es.all (fun e => decide ((e.results.getD []).length ≤ 20)) && pacedCheck (resultsOf es) &&
  (resultsOf es).all (fun r => within 8 r.position && within 440 r.velocity)

theorem within_iff {n : ℕ} {a : Vec2 F32} (h : within n a = true) : InReach n a := by
  simp only [within, Bool.and_eq_true, decide_eq_true_eq] at h
  obtain ⟨⟨⟨h1, h2⟩, h3⟩, h4⟩ := h
  have : ∀ x : F32, (Fl.key x).natAbs ≤ n * 2 ^ f32.q → |Fl.num x| ≤ n := by
    intro x hx
    rw [Fl.num, abs_div, abs_of_pos (by positivity : (0 : ℝ) < 2 ^ f32.q), div_le_iff₀ (by positivity)]
    have e : |((Fl.key x : ℤ) : ℝ)| = ((Fl.key x).natAbs : ℝ) := by
      rw [← Int.cast_abs, Int.abs_eq_natAbs]; rfl
    rw [e]
    exact_mod_cast hx
  exact ⟨h1, h2, this _ h3, this _ h4⟩

theorem pacedCheck_iff {out : List (Result F32 F64)} (h : pacedCheck out = true) : Paced (1 / 170) out := by
  have pair : ∀ r r' : Result F32 F64, Fl.key r.time ≤ Fl.key r'.time → (Fl.key r'.time - Fl.key r.time) * 170 ≤ 2 ^ f64.q →
      0 ≤ Fl.num r'.time - Fl.num r.time ∧ Fl.num r'.time - Fl.num r.time ≤ 1 / 170 := by
    intro r r' h1 h2
    have hq : (0 : ℝ) < 2 ^ f64.q := by positivity
    have h1' : ((Fl.key r.time : ℤ) : ℝ) ≤ (Fl.key r'.time : ℤ) := by exact_mod_cast h1
    have h2' : (((Fl.key r'.time : ℤ) : ℝ) - (Fl.key r.time : ℤ)) * 170 ≤ 2 ^ f64.q := by exact_mod_cast h2
    unfold Fl.num
    rw [← sub_div]
    refine ⟨div_nonneg (by linarith) hq.le, ?_⟩
    rw [div_le_iff₀ hq]
    linarith
  induction out with
  | nil => exact ⟨by simp, .nil⟩
  | cons r out ih =>
    cases out with
    | nil =>
      simp only [pacedCheck, decide_eq_true_eq] at h
      exact ⟨by simpa using h, .singleton _⟩
    | cons r' out =>
      simp only [pacedCheck, Bool.and_eq_true, decide_eq_true_eq] at h
      obtain ⟨⟨⟨h1, h2⟩, h3⟩, h4⟩ := h
      obtain ⟨g1, g2⟩ := ih h4
      refine ⟨fun r₀ hr₀ => ?_, .cons_cons (pair r r' h2 h3) g2⟩
      rcases List.mem_cons.1 hr₀ with rfl | hr₀
      · exact h1
      · exact g1 r₀ hr₀

theorem calm_mass : Finite calmParams.position.springMassConstant ∧ 1 / 3000 ≤ num calmParams.position.springMassConstant ∧
    num calmParams.position.springMassConstant ≤ 1 / 2900 := by
  have hq : (0 : ℝ) < 2 ^ f32.q := by positivity
  have h1 : (2 : ℤ) ^ f32.q ≤ Fl.key calmParams.position.springMassConstant * 3000 := by decide +kernel
  have h2 : Fl.key calmParams.position.springMassConstant * 2900 ≤ (2 : ℤ) ^ f32.q := by decide +kernel
  refine ⟨by decide +kernel, ?_, ?_⟩
  · have : (2 : ℝ) ^ f32.q ≤ (Fl.key calmParams.position.springMassConstant : ℤ) * 3000 := by exact_mod_cast h1
    rw [num, div_le_div_iff₀ (by norm_num) hq]
    linarith
  · have : ((Fl.key calmParams.position.springMassConstant : ℤ) : ℝ) * 2900 ≤ (2 : ℝ) ^ f32.q := by exact_mod_cast h2
    rw [num, div_le_div_iff₀ hq (by norm_num)]
    linarith

theorem calm_suits : Suits (num calmParams.position.springMassConstant) (num calmParams.position.dragConstant) (1 / 170) 8 := by
  obtain ⟨-, h1, h2⟩ := calm_mass
  have h3 : num calmParams.position.dragConstant = 72 := num_lit (f := f32) (n := 72) (by decide)
  rw [h3]
  refine ⟨⟨?_, ?_⟩, ⟨by norm_num, by norm_num⟩, ⟨by norm_num, by norm_num, ?_⟩, ⟨by norm_num, by norm_num⟩⟩
  · exact le_trans (by norm_num) h1
  · exact h2.trans (by norm_num)
  · linarith

/-- The example is calm; and its results do not get far. -/
theorem calm_stroke : ∃ (rs : List (Response F32 F64)) (m : StrokeModeler F32 F64), Session calmOps rs m ∧ Regular calmOps rs ∧
    (known calmOps rs).params = some calmParams ∧ 10 ≤ (resultsOf (strokeOf calmOps rs)).length ∧
    (resultsOf (strokeOf calmOps rs)).length ≤ 2 ^ 18 ∧ Calm calmParams (1 / 170) 8 (strokeOf calmOps rs) ∧
    (∀ r ∈ resultsOf (strokeOf calmOps rs), InReach 8 r.position) ∧ ∀ r ∈ resultsOf (strokeOf calmOps rs), InReach 440 r.velocity := by
  obtain ⟨rs, m, h, hP⟩ := exists_session (ops := calmOps) (P := fun rs _ => noStale calmOps rs && calmCheck (strokeOf calmOps rs) &&
    decide ((known calmOps rs).params = some calmParams ∧ 10 ≤ (resultsOf (strokeOf calmOps rs)).length ∧
      (resultsOf (strokeOf calmOps rs)).length ≤ 100)) (by kernel_rfl)
  simp only [Bool.and_eq_true, decide_eq_true_eq, calmCheck, List.all_eq_true] at hP
  obtain ⟨⟨h1, ⟨⟨⟨h2, h3⟩, h4⟩, h5⟩, h6⟩, h7, h8, h9⟩ := hP
  refine ⟨rs, m, h, ⟨noStale_iff h1, ?_⟩, h7, h8, h9.trans (by norm_num), ?_, fun r hr => within_iff (h6 r hr).1, fun r hr => within_iff (h6 r hr).2⟩
  · intro a p b h hd
    have hm : Op.resetParams p ∈ calmOps := by simp [h]
    simp [calmOps, usual] at hm
    simp [hm, calmParams, params] at hd
  · refine ⟨rfl, rfl, rfl, ?_, calm_mass.1, by decide +kernel, calm_suits, fun i hi => within_iff (h3 i hi), fun e he => (h4 e he).trans (by norm_num),
      pacedCheck_iff h5⟩
    intro e he
    split at h2
    · rename_i e' es hs
      rw [hs] at he
      obtain rfl := Option.some.inj he
      simpa [and_assoc] using h2
    · cases h2

end Ex

/-- C62 applies to a stroke of a Down, a Move and an Up with more than ten results. -/
example : ∃ (rs : List (Response F32 F64)) (m : StrokeModeler F32 F64) (w : ℕ → ℝ), Session calmOps rs m ∧ Regular calmOps rs ∧
    (known calmOps rs).params = some calmParams ∧ strokeOf calmOps rs ≠ [] ∧ Calm calmParams (1 / 170) 8 (strokeOf calmOps rs) ∧
    Weights (fade (num calmParams.position.springMassConstant) (num calmParams.position.dragConstant)) (resultsOf (strokeOf calmOps rs)) w ∧
    (∀ k, k < (resultsOf (strokeOf calmOps rs)).length → w k ≤ 2 ^ 18) ∧ 10 ≤ (resultsOf (strokeOf calmOps rs)).length := by
  obtain ⟨rs, m, h1, h2, h3, h4, h5, h6, -⟩ := calm_stroke
  refine ⟨rs, m, fun k => k, h1, h2, h3, ?_, h6, Weights.count h6.paced ?_, fun k hk => ?_, h4⟩
  · intro h0
    rw [h0] at h4
    simp [resultsOf] at h4
  · obtain ⟨g1, g2, -⟩ := calm_suits.pos
    unfold fade
    positivity
  · have : k ≤ 2 ^ 18 := by omega
    change (k : ℝ) ≤ 2 ^ 18
    exact_mod_cast this

/-- C63 applies to this stroke too. -/
example : ∃ (rs : List (Response F32 F64)) (m : StrokeModeler F32 F64) (w : ℕ → ℝ) (P : Ref.Params), Session calmOps rs m ∧ Regular calmOps rs ∧
    (known calmOps rs).params = some calmParams ∧ strokeOf calmOps rs ≠ [] ∧ Calm calmParams (1 / 170) 8 (strokeOf calmOps rs) ∧
    (∀ r ∈ resultsOf (strokeOf calmOps rs), InReach 8 r.position) ∧
    (∀ r ∈ resultsOf (strokeOf calmOps rs),
      InReach (11 / 10 * ((Real.sqrt (num calmParams.position.springMassConstant))⁻¹ * 8)) r.velocity) ∧
    Weights (fade (num calmParams.position.springMassConstant) (num calmParams.position.dragConstant)) (resultsOf (strokeOf calmOps rs)) w ∧
    P.mass = num calmParams.position.springMassConstant ∧ P.drag = num calmParams.position.dragConstant ∧
    10 ≤ (resultsOf (strokeOf calmOps rs)).length := by
  obtain ⟨rs, m, h1, h2, h3, h4, h5, h6, h7, h8⟩ := calm_stroke
  refine ⟨rs, m, fun k => k, springOf _ _ (1 / 170), h1, h2, h3, ?_, h6, h7, ?_, Weights.count h6.paced ?_, rfl, rfl, h4⟩
  · intro h0
    rw [h0] at h4
    simp [resultsOf] at h4
  · have hroot : 50 ≤ (Real.sqrt (num calmParams.position.springMassConstant))⁻¹ := by
      obtain ⟨-, g1, g2⟩ := calm_mass
      have g0 : 0 < num calmParams.position.springMassConstant := lt_of_lt_of_le (by norm_num) g1
      rw [le_inv_comm₀ (by norm_num) (Real.sqrt_pos.2 g0), Real.sqrt_le_left (by norm_num)]
      exact g2.trans (by norm_num)
    intro r hr
    obtain ⟨a1, a2, a3, a4⟩ := h8 r hr
    exact ⟨a1, a2, a3.trans (by linarith), a4.trans (by linarith)⟩
  · obtain ⟨g1, g2, -⟩ := calm_suits.pos
    unfold fade
    positivity

end Examples
end
end Ink
