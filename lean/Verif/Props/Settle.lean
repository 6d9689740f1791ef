import Verif.Lemmas.Settle
import Verif.Props.Wobble
/-!
# Stability on exact numbers: C58, C59
-/
namespace Ink
noncomputable section
open Scalar Arith XR
open Classical

variable {ops : List (Op XR XR)} {rs : List (Response XR XR)} {m : StrokeModeler XR XR} {p : StrokeModelParams XR XR}
  {e : Event XR XR} {a b : List (Event XR XR)} {g : Event XR XR}

/-- The output rate is high enough for the spring: at least twice the drag constant, and at least four times the inverse of mass
times drag. The recommended parameters are such. -/
structure RateOk (p : StrokeModelParams XR XR) (M d : ℝ) : Prop where
  mass : p.position.springMassConstant = fin M
  drag : p.position.dragConstant = fin d
  rate : ∃ r, p.sampling.minOutputRate = fin r ∧ 2 * d ≤ r ∧ 4 ≤ M * d * r
  cap : p.sampling.maxOutputsPerCall < 2147483647

theorem RateOk.stable {M d : ℝ} (h : RateOk p M d) {P : Ref.Params} (hr : Realizes p P) :
    P.mass = M ∧ P.drag = d ∧ P.Stable ∧ P.maxOut < 2147483647 := by
  obtain ⟨r, h1, h2, h3⟩ := h.rate
  have e1 := fin_inj.1 (hr.mass.symm.trans h.mass)
  have e2 := fin_inj.1 (hr.drag.symm.trans h.drag)
  have e3 := fin_inj.1 (hr.rate.symm.trans h1)
  have e4 := h.cap
  rw [hr.maxOut] at e4
  exact ⟨e1, e2, ⟨by rw [e2, e3]; exact h2, by rw [e1, e2, e3]; exact h3⟩, e4⟩

/-- The tip states for the inputs after some accepted one have the property `I`, if it and they are taken to be in `S`. -/
theorem course_kept_tips {P : Ref.Params} (hr : Realizes p P) (hv : P.Valid) {a' : List (Event XR XR)} {m₀ : StrokeModeler XR XR}
    (hc : Course p (e :: (a' ++ b)) m₀) (hcap : P.maxOut < 2147483647) {S : Set ℂ}
    (hS : Convex ℝ S) {I : Ref.Tip → Prop} (hk : Ref.Kept P S I) (ha : (state P e a').anchor.1 ∈ S) (hq : I (state P e a').tip)
    (hpl : ∀ b₁ f b₂, b = b₁ ++ f :: b₂ → (Ref.place P (state P e (a' ++ b₁)) (touch f.input)).1 ∈ S) {f : Event XR XR}
    {b₁ b₂ : List (Event XR XR)} (hb : b = b₁ ++ f :: b₂) {tips : List Ref.Tip}
    (ht : (Ref.advance P (state P e (a' ++ b₁)) (touch f.input)).2 = some tips) : ∀ u ∈ tips, I u := by
  obtain ⟨ho, _⟩ := course_ordered hr hv hc
  rw [List.map_append, Ref.ordered_split] at ho
  have hall := hk.answers hS hv hcap (Ref.synced_after hv (Ref.synced_start _ _) ho.1) ha hq ho.2 (by
    intro l i l' h
    obtain ⟨b₁, b₂, rfl, h1, h2⟩ := List.map_eq_append_iff.1 h
    obtain ⟨f, b₃, rfl, h3, h4⟩ := List.map_eq_cons_iff.1 h2
    have := hpl b₁ f b₃ rfl
    rw [← h1, ← Ref.after_split, ← h3, ← List.map_append]
    exact this)
  refine hall (some tips) ?_
  rw [hb, List.map_append, Ref.answers_split, List.map_cons, Ref.answers, List.mem_append]
  right
  rw [← ht, state, List.map_append, Ref.after_split]
  exact List.mem_cons_self

theorem mem_resultsOf {r : Result XR XR} (h : r ∈ resultsOf b) : ∃ b₁ f b₂ out, b = b₁ ++ f :: b₂ ∧ f.results = some out ∧ r ∈ out := by
  simp only [resultsOf, List.mem_flatMap] at h
  obtain ⟨f, hf, hr⟩ := h
  obtain ⟨b₁, b₂, rfl⟩ := List.append_of_mem hf
  cases hres : f.results with
  | none => rw [hres] at hr; simp at hr
  | some out => rw [hres] at hr; exact ⟨b₁, f, b₂, out, rfl, hres, hr⟩

/-- Without loop mitigation the results are those tip states. -/
theorem course_kept {P : Ref.Params} (hr : Realizes p P) (hv : P.Valid) {a' : List (Event XR XR)} {m₀ : StrokeModeler XR XR}
    (hc : Course p (e :: (a' ++ b)) m₀) (hl : p.position.loop.isEnabled = false) (hcap : P.maxOut < 2147483647) {S : Set ℂ}
    (hS : Convex ℝ S) {I : Ref.Tip → Prop} (hk : Ref.Kept P S I) (ha : (state P e a').anchor.1 ∈ S) (hq : I (state P e a').tip)
    (hpl : ∀ b₁ f b₂, b = b₁ ++ f :: b₂ → (Ref.place P (state P e (a' ++ b₁)) (touch f.input)).1 ∈ S) :
    ∀ r ∈ resultsOf b, ∃ u, r.kin = tip u ∧ I u := by
  intro r hmem
  obtain ⟨b₁, f, b₂, out, hb, hres, hrf⟩ := mem_resultsOf hmem
  have hc' : Course p (e :: ((a' ++ b₁) ++ f :: b₂)) m₀ := by rw [List.append_assoc, ← hb]; exact hc
  obtain ⟨tips, _, h3, _, _, _, _, _, _, h9⟩ := course_answer hr hv hc' hres
  have h4 : r.kin ∈ tips.map tip := by rw [← h9 hl]; exact List.mem_map_of_mem hrf
  obtain ⟨u, hu, h5⟩ := List.mem_map.1 h4
  exact ⟨u, h5.symm, course_kept_tips hr hv hc hcap hS hk ha hq hpl hb h3 u hu⟩

/-- All inputs of a stroke are finite. -/
theorem course_finite {P : Ref.Params} (hr : Realizes p P) (hv : P.Valid) {rest : List (Event XR XR)} {m₀ : StrokeModeler XR XR}
    (hc : Course p (e :: rest) m₀) : ∀ f ∈ e :: rest, FiniteInput f.input := by
  obtain ⟨e', rest', he, ht⟩ := course_tale hr hv hc
  obtain ⟨rfl, rfl⟩ := List.cons.inj he
  intro f hf
  rcases List.mem_cons.1 hf with rfl | hf
  · exact ht.finite
  · exact (ht.inputs f hf).1

/-- Where an input is taken to be. -/
theorem course_place {P : Ref.Params} (hr : Realizes p P) (hv : P.Valid) {f : Event XR XR} {a' : List (Event XR XR)}
    {m₀ : StrokeModeler XR XR} (hc : Course p (e :: (a' ++ f :: b)) m₀) {S : Set ℂ} (hS : Convex ℝ S) (hf : toPoint f.input.position ∈ S)
    (hw : p.wobble.isEnabled = true → ((e :: (a' ++ f :: b)).map Event.input).Pairwise (fun i j => (i.time ≤ᵇ j.time) = true) ∧
      ∀ i ∈ e :: a', toReal f.input.time - toReal i.input.time ≤ toReal p.wobble.timeout → toPoint i.input.position ∈ S) :
    (Ref.place P (state P e a') (touch f.input)).1 ∈ S := by
  unfold touch
  split
  · exact hf
  · refine Ref.place_mem hS hv _ _ _ (course_moves hr hv hc) _ hf ?_
    intro timeout lo hi hP
    have hpw : p.wobble = ⟨true, fin timeout, fin lo, fin hi⟩ := by have := hr.wobble; rw [hP] at this; exact this
    obtain ⟨ho, hin⟩ := hw (by rw [hpw])
    rw [← pathOf_soFar]
    have hfin := course_finite hr hv hc
    constructor
    · refine pathOf_ordered ?_ (ho.sublist ?_)
      · intro i hi
        simp only [soFar, List.mem_map] at hi
        obtain ⟨g, hg, rfl⟩ := hi
        refine hfin g ?_
        simp only [List.cons_append, List.mem_cons, List.mem_append, List.not_mem_nil, or_false] at hg ⊢
        tauto
      · rw [soFar]
        refine List.Sublist.map _ ?_
        rw [← List.cons_append]
        exact List.Sublist.append_left (by simp) _
    · intro y hy hle
      simp only [pathOf, soFar, List.map_map, List.mem_map] at hy
      obtain ⟨i, hi, rfl⟩ := hy
      rw [List.mem_append, List.mem_singleton] at hi
      rcases hi with hi | rfl
      · exact hin i hi (by rw [hpw]; exact hle)
      · exact hf

/-- The anchor after an accepted input. -/
theorem course_anchor_mem {P : Ref.Params} (hr : Realizes p P) (hv : P.Valid) {m₀ : StrokeModeler XR XR} {a' : List (Event XR XR)}
    (hc : Course p (e :: (a' ++ g :: b)) m₀) (hb : b ≠ []) (hg : g.results ≠ none) :
    (state P e (a' ++ [g])).anchor.1 = (Ref.place P (state P e a') (touch g.input)).1 := by
  obtain ⟨out, hout⟩ := Option.ne_none_iff_exists'.1 hg
  obtain ⟨tips, _, h3, _⟩ := course_answer hr hv hc hout
  obtain ⟨f, b', rfl⟩ := List.exists_cons_of_ne_nil hb
  have hm := course_moves hr hv (a := a' ++ [g]) (f := f) (b := b') (by simpa using hc) (touch g.input)
    (List.mem_map.2 ⟨g, by simp, rfl⟩)
  cases ht : touch g.input with
  | up x t => rw [ht] at hm; exact hm.elim
  | move x t =>
    rw [ht] at h3
    obtain ⟨_, _, _, _, h4⟩ := Ref.move_answer h3
    have : state P e (a' ++ [g]) = (Ref.advance P (state P e a') (touch g.input)).1 := by
      simp only [state, List.map_append, List.map_singleton, Ref.after_append]
    rw [this, ht, h4]; rfl

/-- The state after a prefix of a stroke holds its last result. -/
theorem course_last {P : Ref.Params} (hr : Realizes p P) (hv : P.Valid) {m₀ : StrokeModeler XR XR} {a' : List (Event XR XR)}
    (hc : Course p (e :: (a' ++ b)) m₀) (hb : b ≠ []) (hl : p.position.loop.isEnabled = false) :
    (resultsOf (e :: a')).getLast?.map Result.kin = some (tip (state P e a').tip) := by
  obtain ⟨f, b', rfl⟩ := List.exists_cons_of_ne_nil hb
  obtain ⟨m₁, h₁⟩ := hc.take (a := e :: a') (b := f :: b') (by simp)
  rw [← List.getLast?_map, course_results hr hv h₁ hl, List.getLast?_map, Ref.told_last _ _ _ (course_moves hr hv hc)]
  rfl

/-- Where the inputs of a resting pen are taken to be. -/
theorem course_rest (hg : g.results ≠ none) {x : ℂ} (hx : ∀ f ∈ g :: b, f.input.position = V x)
    (hw : p.wobble.isEnabled = true → ((a ++ g :: b).map Event.input).Pairwise (fun i j => (i.time ≤ᵇ j.time) = true) ∧
      ∀ i ∈ a, i.input.position = V x ∨ toReal i.input.time + toReal p.wobble.timeout < toReal g.input.time) {P : Ref.Params}
    (h1 : Realizes p P) (h2 : P.Valid) {m₀ : StrokeModeler XR XR} {a' : List (Event XR XR)} (hea : a ++ [g] = e :: a') (hb : b ≠ [])
    (hc : Course p (e :: (a' ++ b)) m₀) : (state P e a').anchor.1 ∈ ({x} : Set ℂ) ∧
      (∀ b₁ f b₂, b = b₁ ++ f :: b₂ → (Ref.place P (state P e (a' ++ b₁)) (touch f.input)).1 ∈ ({x} : Set ℂ)) ∧
      ∀ a₁ f b₂, a' ++ b = a₁ ++ f :: b₂ → a.length ≤ a₁.length + 1 →
        (Ref.place P (state P e a₁) (touch f.input)).1 ∈ ({x} : Set ℂ) := by
  have hs' : a ++ g :: b = e :: (a' ++ b) := by
    rw [← List.cons_append, ← hea]; simp
  have hord : p.wobble.isEnabled = true → ((e :: (a' ++ b)).map Event.input).Pairwise (fun i j => (i.time ≤ᵇ j.time) = true) := by
    intro hwb
    have := (hw hwb).1
    rwa [hs'] at this
  have hfin := course_finite h1 h2 hc
  have hplace : ∀ a₁ f b₂, e :: (a' ++ b) = e :: (a₁ ++ f :: b₂) → (∃ a₂ b₁, e :: a₁ = a ++ b₁ ∧ f :: b₂ = a₂ ∧ g :: b = b₁ ++ a₂) →
      (Ref.place P (state P e a₁) (touch f.input)).1 ∈ ({x} : Set ℂ) := by
    rintro a₁ f b₂ hsplit ⟨_, b₁, hb₁, rfl, hgb⟩
    rw [hsplit] at hc hord hfin
    refine course_place h1 h2 hc (convex_singleton x) ?_ ?_
    · rw [hx f (by rw [hgb]; simp)]; simp
    · intro hwb
      refine ⟨hord hwb, ?_⟩
      intro i hi hle
      rw [hb₁, List.mem_append] at hi
      have hxi : ∀ i : Event XR XR, i.input.position = V x → toPoint i.input.position ∈ ({x} : Set ℂ) := by intro i h; rw [h]; simp
      rcases hi with hi | hi
      · rcases (hw hwb).2 i hi with h0 | h0
        · exact hxi i h0
        · exfalso
          have hgf : g = f ∨ (g.input.time ≤ᵇ f.input.time) = true := by
            cases b₁ with
            | nil => left; exact (List.cons.inj hgb).1
            | cons c b₁ =>
              right
              obtain ⟨rfl, hb2⟩ := List.cons.inj hgb
              have h3 := (hw hwb).1
              rw [hb2, List.map_append, List.pairwise_append, List.map_cons, List.pairwise_cons] at h3
              exact h3.2.1.1 _ (by simp)
          have hle' : toReal g.input.time ≤ toReal f.input.time := by
            rcases hgf with rfl | h3
            · exact le_rfl
            · have hgm : g ∈ e :: (a₁ ++ f :: b₂) := by rw [← hsplit, ← hs']; simp
              have hfm : f ∈ e :: (a₁ ++ f :: b₂) := by simp
              rw [(finiteInput_eq (hfin g hgm)).2, (finiteInput_eq (hfin f hfm)).2] at h3
              simpa using h3
          linarith
      · exact hxi i (hx i (by rw [hgb]; simp [hi]))
  refine ⟨?_, ?_, ?_⟩
  · rcases List.eq_nil_or_concat a' with rfl | ⟨a'', c, rfl⟩
    · obtain ⟨rfl, rfl⟩ : a = [] ∧ g = e := by
        cases a with
        | nil => simpa using hea
        | cons => simp at hea
      show toPoint g.input.position ∈ ({x} : Set ℂ)
      rw [hx g (by simp)]; simp
    · rw [List.concat_eq_append] at hea hc hplace ⊢
      rw [← List.cons_append] at hea
      obtain ⟨rfl, hgc⟩ := List.append_inj' hea rfl
      obtain rfl : g = c := by simpa using hgc
      rw [course_anchor_mem h1 h2 (by simpa using hc) hb hg]
      exact hplace a'' g b (by simp) ⟨_, [], by simp, rfl, by simp⟩
  · intro b₁ f b₂ hb'
    refine hplace (a' ++ b₁) f b₂ (by rw [hb']; simp) ⟨_, g :: b₁, ?_, rfl, by rw [hb']; simp⟩
    rw [← List.cons_append, ← hea]; simp
  · intro a₁ f b₂ h hlen
    have h3 : a ++ g :: b = (e :: a₁) ++ f :: b₂ := by rw [hs', h]; simp
    rcases List.append_eq_append_iff.1 h3 with ⟨l, h4, h5⟩ | ⟨l, h4, h5⟩
    · exact hplace a₁ f b₂ (by rw [h]) ⟨_, l, h4, rfl, h5⟩
    · have : l = [] := by
        have := congrArg List.length h4
        rw [← List.length_eq_zero_iff]
        simp only [List.length_append, List.length_cons] at this
        omega
      subst this
      exact hplace a₁ f b₂ (by rw [h]) ⟨_, [], by simpa using h4.symm, rfl, by simpa using h5.symm⟩

/-- From the energy and its decay to the distance. -/
theorem dist_of_scaled {M d : ℝ} {P : Ref.Params} (hM : P.mass = M) (hd : P.drag = d) (hst : P.Stable) (hv : P.Valid) {x : ℂ}
    {u : Ref.Tip} {E t : ℝ} (hI : Ref.scaled P x u ≤ E * Real.exp (P.decay / 5 * t)) :
    ‖u.pos - x‖ ^ 2 ≤ M * E * Real.exp (-(d / (10 * (1 + M * d ^ 2))) * (u.time - t)) := by
  have k1 := Ref.dist_le_energy hst hv x u
  rw [hM] at k1
  refine k1.trans ?_
  unfold Ref.scaled at hI
  have k3 : Ref.energy P x u ≤ E * Real.exp (-(d / (10 * (1 + M * d ^ 2))) * (u.time - t)) := by
    have hdec : P.decay / 5 = d / (10 * (1 + M * d ^ 2)) := by
      unfold Ref.Params.decay; rw [hM, hd, div_div]; congr 1; ring
    rw [← hdec]
    have e1 : Real.exp (-(P.decay / 5) * (u.time - t)) = Real.exp (P.decay / 5 * t) / Real.exp (P.decay / 5 * u.time) := by
      rw [← Real.exp_sub]; congr 1; ring
    rw [e1, ← mul_div_assoc, le_div_iff₀ (Real.exp_pos _)]
    exact hI
  have hM0 : 0 < M := hM ▸ hv.mass
  rw [mul_assoc]
  exact mul_le_mul_of_nonneg_left k3 hM0.le

/-- Tip states of a stroke in a disk. -/
theorem course_near {M d : ℝ} (hrate : RateOk p M d) {P : Ref.Params} (h1 : Realizes p P) (h2 : P.Valid) {m₀ : StrokeModeler XR XR}
    (hc : Course p (e :: b) m₀) {x : ℂ} {R : ℝ} (hx : ∀ f ∈ e :: b, ∃ y, f.input.position = V y ∧ ‖y - x‖ ≤ R)
    (hw : p.wobble.isEnabled = true → ((e :: b).map Event.input).Pairwise (fun i j => (i.time ≤ᵇ j.time) = true)) :
    P.mass * Ref.cap P R = 640 * ((1 + M * d ^ 2) ^ 2 / (M * d ^ 2)) * R ^ 2 ∧ R ^ 2 ≤ P.mass * Ref.cap P R ∧
    Ref.energy P x (state P e []).tip ≤ Ref.cap P R ∧
    (∀ b₁ f b₂, b = b₁ ++ f :: b₂ → (Ref.place P (state P e b₁) (touch f.input)).1 ∈ Metric.closedBall x R ∧
      Ref.energy P x (state P e b₁).tip ≤ Ref.cap P R ∧
      (∀ q ∈ polyline P e (b₁ ++ [f]), q.pos ∈ Metric.closedBall x R) ∧
      ∀ tips, (Ref.advance P (state P e b₁) (touch f.input)).2 = some tips → ∀ u ∈ tips, Ref.energy P x u ≤ Ref.cap P R) := by
  obtain ⟨hM, hd, hst, hcap⟩ := hrate.stable h1
  have hM0 : 0 < M := hM ▸ h2.mass
  have hd0 : 0 < d := hd ▸ h2.drag
  have hball : {y : ℂ | ‖y - x‖ ≤ R} = Metric.closedBall x R := by ext y; simp [dist_eq_norm]
  have hin : ∀ f ∈ e :: b, toPoint f.input.position ∈ Metric.closedBall x R := by
    intro f hf
    obtain ⟨y, h1, h2⟩ := hx f hf
    rw [h1, ← hball]; exact h2
  have hcapE : P.mass * Ref.cap P R = 640 * ((1 + M * d ^ 2) ^ 2 / (M * d ^ 2)) * R ^ 2 := by
    unfold Ref.cap Ref.Params.decay
    rw [hM, hd]
    field_simp
    ring
  have k4 : 1 ≤ (1 + M * d ^ 2) ^ 2 / (M * d ^ 2) := by
    have : 0 < M * d ^ 2 := by positivity
    rw [one_le_div this]
    nlinarith
  have k5 := mul_le_mul_of_nonneg_right k4 (sq_nonneg R)
  have hstart : Ref.energy P x (state P e []).tip ≤ Ref.cap P R := by
    have k := Ref.energy_le hst h2 x (state P e []).tip
    have k1 : ‖(state P e []).tip.pos - x‖ ≤ R := by have := hin e (by simp); rw [← hball] at this; exact this
    have k2 : (state P e []).tip.vel = 0 := rfl
    rw [k2] at k
    refine le_of_mul_le_mul_left (a := P.mass) ?_ h2.mass
    rw [hcapE]
    have k3 : ‖(state P e []).tip.pos - x‖ ^ 2 ≤ R ^ 2 := pow_le_pow_left₀ (norm_nonneg _) k1 2
    simp only [norm_zero] at k
    nlinarith [sq_nonneg R]
  have hpl : ∀ b₁ f b₂, b = b₁ ++ f :: b₂ → (Ref.place P (state P e b₁) (touch f.input)).1 ∈ Metric.closedBall x R := by
    intro b₁ f b₂ hb'
    rw [hb'] at hc hw hin
    refine course_place h1 h2 hc (convex_closedBall x R) (hin f (by simp)) fun hwb => ⟨hw hwb, fun i hi _ => hin i ?_⟩
    simp only [List.mem_cons, List.mem_append] at hi ⊢
    tauto
  have hk := Ref.kept_near hst h2 x R
  rw [hball] at hk
  refine ⟨hcapE, by rw [hcapE]; nlinarith [sq_nonneg R], hstart, fun b₁ f b₂ hb' => ⟨hpl b₁ f b₂ hb', ?_, ?_, ?_⟩⟩
  · obtain ⟨ho, _⟩ := course_ordered h1 h2 hc
    rw [hb', List.map_append, Ref.ordered_split] at ho
    refine (hk.after (convex_closedBall x R) h2 hcap (Ref.synced_start _ _) (hin e (by simp)) hstart ho.1 ?_).2
    intro l i l' h
    obtain ⟨c₁, c₂, rfl, e1, e2⟩ := List.map_eq_append_iff.1 h
    obtain ⟨f', c₃, rfl, e3, e4⟩ := List.map_eq_cons_iff.1 e2
    rw [← e1, ← e3]
    exact hpl c₁ f' (c₃ ++ f :: b₂) (by rw [hb']; simp)
  · refine Ref.polyline_mem (hin e (by simp)) ?_
    intro l i l' h
    obtain ⟨c₁, c₂, hc12, e1, e2⟩ := List.map_eq_append_iff.1 h
    obtain ⟨f', c₃, rfl, e3, e4⟩ := List.map_eq_cons_iff.1 e2
    rw [← e1, ← e3]
    refine hpl c₁ f' (c₃ ++ b₂) ?_
    rw [hb', ← List.singleton_append, ← List.append_assoc, hc12]; simp
  · intro tips ht
    exact course_kept_tips (a' := []) h1 h2 hc hcap (convex_closedBall x R) hk (hin e (by simp)) hstart hpl hb' ht

/-- C58: let the pen rest at `x` from the accepted input `g` on, and if wobble smoothing is enabled let the inputs come in order of
time and those elsewhere be more than the timeout older. Then the distance of the results from `x` decays at least
exponentially: with `q` the last result up to `g`, it is for every result `u` of the later inputs bounded by the distance and
the speed of `q`, times a factor that decays with the time elapsed. This holds for any spacing of the inputs, any turning
angle limit, and for the Up too, given that the output rate is high enough for the spring. -/
theorem C58_settles_exact_partial (h : Session ops rs m) (hr : Regular ops rs) (hp : (known ops rs).params = some p)
    (hl : p.position.loop.isEnabled = false) {M d : ℝ} (hrate : RateOk p M d) (hs : strokeOf ops rs = a ++ g :: b)
    (hg : g.results ≠ none) {x : ℂ} (hx : ∀ f ∈ g :: b, f.input.position = V x)
    (hw : p.wobble.isEnabled = true → ((a ++ g :: b).map Event.input).Pairwise (fun i j => (i.time ≤ᵇ j.time) = true) ∧
      ∀ i ∈ a, i.input.position = V x ∨ toReal i.input.time + toReal p.wobble.timeout < toReal g.input.time) :
    ∀ r ∈ resultsOf b, ∃ q u : Ref.Tip, (resultsOf (a ++ [g])).getLast?.map Result.kin = some (tip q) ∧ r.kin = tip u ∧
      ‖u.pos - x‖ ^ 2 ≤ (2 * ‖q.pos - x‖ ^ 2 + 2 * M * ‖q.vel‖ ^ 2) * Real.exp (-(d / (10 * (1 + M * d ^ 2))) * (u.time - q.time)) := by
  intro r hrb
  have hb : b ≠ [] := by rintro rfl; simp [resultsOf] at hrb
  obtain ⟨e, a', hea⟩ : ∃ e a', a ++ [g] = e :: a' := by cases a <;> simp
  have hs' : strokeOf ops rs = e :: (a' ++ b) := by
    rw [hs, ← List.cons_append, ← hea]; simp
  obtain ⟨P, m₀, h1, h2, hc, _⟩ := h.stroke hr hp hs'
  obtain ⟨hM, hd, hst, hcap⟩ := hrate.stable h1
  obtain ⟨hanchor, hplace, _⟩ := course_rest hg hx hw h1 h2 hea hb hc
  obtain ⟨u, hu, hI⟩ := course_kept h1 h2 hc hl hcap (convex_singleton x)
    (Ref.kept_rest hst h2 x (Ref.scaled P x (state P e a').tip)) hanchor le_rfl hplace r hrb
  refine ⟨(state P e a').tip, u, ?_, hu, ?_⟩
  · rw [hea]; exact course_last h1 h2 hc hb hl
  · have k2 := Ref.energy_le hst h2 x (state P e a').tip
    rw [hM] at k2
    exact (dist_of_scaled hM hd hst h2 hI).trans (mul_le_mul_of_nonneg_right k2 (Real.exp_pos _).le)

/-- C58: the same with loop mitigation, and in terms of the inputs alone: if those before are at most `R` away from `x`, the squared
distance of the results from `x` is at most a constant times `R²`, times a factor that decays with the time elapsed since `g`.
With loop mitigation this is for the results of an input `f` that comes so late that the raw samples it is projected to are all
from the resting pen. -/
theorem C58_settles_mitigated_exact_partial (h : Session ops rs m) (hr : Regular ops rs) (hp : (known ops rs).params = some p)
    (hl : LoopOk p.position.loop) {M d : ℝ} (hrate : RateOk p M d) (hs : strokeOf ops rs = a ++ g :: b) (hg : g.results ≠ none) {x : ℂ}
    (hx : ∀ f ∈ g :: b, f.input.position = V x) {R : ℝ} (hR : ∀ f ∈ a ++ g :: b, ∃ y, f.input.position = V y ∧ ‖y - x‖ ≤ R)
    (hw : p.wobble.isEnabled = true → ((a ++ g :: b).map Event.input).Pairwise (fun i j => (i.time ≤ᵇ j.time) = true) ∧
      ∀ i ∈ a, i.input.position = V x ∨ toReal i.input.time + toReal p.wobble.timeout < toReal g.input.time)
    {b₁ b₂ : List (Event XR XR)} {f : Event XR XR} (hbf : b = b₁ ++ f :: b₂)
    (hlate : p.position.loop.isEnabled = true → p.stylus.minInputSamples ≤ (g :: b₁ ++ [f]).length ∧
      ∀ i ∈ a ++ [g], (p.stylus.minSampleDuration <ᵇ f.input.time - i.input.time) = true) {out : List (Result XR XR)}
    (hres : f.results = some out) :
    ∀ r ∈ out, ∃ (y : ℂ) (t t₀ : ℝ), r.position = V y ∧ r.time = fin t ∧ g.input.time = fin t₀ ∧
      ‖y - x‖ ^ 2 ≤ 640 * ((1 + M * d ^ 2) ^ 2 / (M * d ^ 2)) * R ^ 2 * Real.exp (-(d / (10 * (1 + M * d ^ 2))) * (t - t₀)) := by
  intro r hrf
  have hb : b ≠ [] := by rw [hbf]; simp
  obtain ⟨e, a', hea⟩ : ∃ e a', a ++ [g] = e :: a' := by cases a <;> simp
  have hs0 : a ++ g :: b = e :: (a' ++ b) := by rw [← List.cons_append, ← hea]; simp
  have hs' : strokeOf ops rs = e :: (a' ++ b) := by rw [hs, hs0]
  obtain ⟨P, m₀, h1, h2, hc, _⟩ := h.stroke hr hp hs'
  obtain ⟨hM, hd, hst, hcap⟩ := hrate.stable h1
  obtain ⟨hanchor, hplace, hplaces⟩ := course_rest hg hx hw h1 h2 hea hb hc
  rw [hs0] at hR
  obtain ⟨hcapE, _, _, hnear⟩ := course_near hrate h1 h2 hc hR (fun hwb => by have := (hw hwb).1; rwa [hs0] at this)
  obtain ⟨c, b', hb'⟩ := List.exists_cons_of_ne_nil hb
  have htip := (hnear a' c b' (by rw [hb'])).2.1
  have hc' : Course p (e :: ((a' ++ b₁) ++ f :: b₂)) m₀ := by rw [List.append_assoc, ← hbf]; exact hc
  obtain ⟨tips, j, h3, h4, h5⟩ := course_explained h1 h2 hc' hl hres
  have hkept := course_kept_tips h1 h2 hc hcap (convex_singleton x)
    (Ref.kept_rest hst h2 x (Ref.cap P R * Real.exp (P.decay / 5 * (state P e a').tip.time))) hanchor
    (mul_le_mul_of_nonneg_right htip (Real.exp_pos _).le) hplace hbf h3
  obtain ⟨k, hk⟩ := List.mem_iff_getElem?.1 hrf
  obtain ⟨t, q, _, h6, h7, h8⟩ := h5.get hk
  have hq := dist_of_scaled hM hd hst h2 (hkept q (List.mem_of_getElem? h6))
  -- the time of `g`
  have htime : g.input.time = fin (state P e a').tip.time := by
    obtain ⟨ho, _⟩ := course_ordered h1 h2 hc
    rw [List.map_append, Ref.ordered_split] at ho
    have hsy : (state P e a').tip.time = (state P e a').anchor.2 := Ref.synced_after h2 (Ref.synced_start _ _) ho.1
    obtain ⟨m₁, h₁⟩ := hc.take (a := e :: a') (b := b) (by simp)
    have hmv : ∀ f ∈ a', f.input.eventType = .move := by
      have hcc : Course p (e :: (a' ++ c :: b')) m₀ := by rw [← hb']; exact hc
      obtain ⟨m₂, _, ht⟩ := course_told h1 h2 (e := e) (a := a') (f := c) (b := b') (by simpa using hcc)
      exact (ht.order a' c rfl).1
    obtain ⟨prev, hprev, hpt⟩ := course_anchor h1 h2 h₁ hmv
    obtain ⟨og, hog⟩ := Option.ne_none_iff_exists'.1 hg
    rw [← hea, acceptedOf_append, hog] at hprev
    simp only [Option.isSome_some, ↓reduceIte, List.getLast?_concat, Option.some.injEq] at hprev
    rw [hprev, hpt, hsy]
  have hfac : M * Ref.cap P R = 640 * ((1 + M * d ^ 2) ^ 2 / (M * d ^ 2)) * R ^ 2 := by rw [← hcapE, hM]
  rw [hfac] at hq
  have hend : ∀ y : ℂ, ‖y - x‖ ≤ ‖q.pos - x‖ → ‖y - x‖ ^ 2 ≤ 640 * ((1 + M * d ^ 2) ^ 2 / (M * d ^ 2)) * R ^ 2 *
      Real.exp (-(d / (10 * (1 + M * d ^ 2))) * (q.time - (state P e a').tip.time)) :=
    fun y hy => (pow_le_pow_left₀ (norm_nonneg _) hy 2).trans hq
  by_cases hbare : p.stylus.useStrokeNormalProjection = false ∧ Bare (soFar e (a' ++ b₁) f)
  · refine ⟨q.pos, q.time, _, ?_, ?_, htime, hend _ le_rfl⟩ <;> rw [h7 hbare] <;> rfl
  · obtain ⟨foot, w, hx'⟩ := h8 hbare
    have hkin := hx'.kin
    have e1 : r.position = V (Ref.lerp (Ref.footSample ((polyline P e (a' ++ b₁ ++ [f])).drop j) q foot).pos q.pos w) :=
      congrArg TipState.position hkin
    have e2 : r.time = fin q.time := by
      refine (congrArg TipState.time hkin).trans ?_
      simp [tip, Ref.between, Ref.footSample, Ref.lerp]
    refine ⟨_, q.time, _, e1, e2, htime, hend _ ?_⟩
    cases hlo : p.position.loop.isEnabled with
    | false => rw [hx'.off hlo, Ref.lerp_one]
    | true =>
      have hnorm : p.stylus.useStrokeNormalProjection = true := by
        by_contra h0
        have := (validParts hc.valid).1
        simp [hlo, h0] at this
      obtain ⟨hcount, hdur⟩ := hlate hlo
      have hlenpl : (polyline P e (a' ++ b₁ ++ [f])).length = a.length + b₁.length + 2 := by
        have := congrArg List.length hea
        simp only [List.length_append, List.length_cons, List.length_nil] at this
        rw [polyline_length]; simp only [List.length_append, List.length_cons, List.length_nil]; omega
      have hj : a.length ≤ j := by
        by_contra hlt
        push Not at hlt
        have htimes : (polyline P e (a' ++ b₁ ++ [f])).map Ref.Tip.time = ((a ++ [g]) ++ b₁ ++ [f]).map (fun i => toReal i.input.time) := by
          rw [polyline, Ref.polyline_time, hea]
          simp [touch_time, Function.comp_def]
        have hj1 : j + 1 < (a ++ [g]).length := by simpa using hlt
        have hget : ((polyline P e (a' ++ b₁ ++ [f])).map Ref.Tip.time)[j + 1]? = some (toReal (a ++ [g])[j + 1].input.time) := by
          rw [htimes, List.getElem?_map, List.append_assoc, List.getElem?_append_left hj1, List.getElem?_eq_getElem hj1]; rfl
        have hneed := h4.needed hnorm _ hget (by
          rw [List.length_map, hlenpl]
          simp only [List.length_append, List.length_cons, List.length_nil] at hcount
          omega)
        have hlast : ((polyline P e (a' ++ b₁ ++ [f])).map Ref.Tip.time).getLastD 0 = toReal f.input.time := by
          rw [htimes, List.map_append, List.map_singleton, List.getLastD_concat]
        have hi := hdur _ (List.getElem_mem hj1)
        have hfin := course_finite h1 h2 hc
        have hgm : (a ++ [g])[j + 1] ∈ e :: (a' ++ b) := by
          rw [← List.cons_append, ← hea]
          exact List.mem_append_left _ (List.getElem_mem hj1)
        rw [(finiteInput_eq (hfin _ hgm)).2, (finiteInput_eq (hfin f (by rw [hbf]; simp))).2, fin_sub] at hi
        rw [hlast, hi] at hneed
        cases hneed
      have hlen : j < (polyline P e (a' ++ b₁ ++ [f])).length := by
        have := h4.lt hc.valid (by rw [Ne, List.map_eq_nil_iff, ← List.length_eq_zero_iff, polyline_length]; simp)
        rwa [List.length_map] at this
      have hwin : ∀ q ∈ (polyline P e (a' ++ b₁ ++ [f])).drop j, q.pos ∈ ({x} : Set ℂ) := by
        intro q hq
        have hq' : q ∈ (polyline P e (a' ++ b₁ ++ [f])).drop a.length := by
          rw [show j = a.length + (j - a.length) by omega, ← List.drop_drop] at hq
          exact List.mem_of_mem_drop hq
        refine Ref.polyline_drop (n := a.length) ?_ ?_ q hq'
        · intro h0
          obtain rfl := List.length_eq_zero_iff.1 h0
          obtain ⟨rfl, rfl⟩ : g = e ∧ a' = [] := by simpa using hea.symm |>.symm
          rw [hx g (by simp)]; simp
        · intro l i l' h hlen
          obtain ⟨c₁, c₂, hc12, e1, e2⟩ := List.map_eq_append_iff.1 h
          obtain ⟨f', c₃, rfl, e3, e4⟩ := List.map_eq_cons_iff.1 e2
          rw [← e1, ← e3]
          refine hplaces c₁ f' (c₃ ++ b₂) ?_ (by rw [← e1, List.length_map] at hlen; exact hlen)
          rw [hbf, ← List.append_assoc, ← List.singleton_append, ← List.append_assoc, hc12]; simp
      have hfoot : (Ref.footSample ((polyline P e (a' ++ b₁ ++ [f])).drop j) q foot).pos ∈ ({x} : Set ℂ) := by
        refine Ref.value_mem (convex_singleton x) ?_ ?_ rfl ?_
        · intro y hy
          obtain ⟨q', hq', rfl⟩ := List.mem_map.1 hy
          exact hwin q' hq'
        · rw [Ne, List.map_eq_nil_iff, List.drop_eq_nil_iff]; omega
        · rintro k u rfl
          exact hx'.proj.on
      rw [Set.mem_singleton_iff] at hfoot
      rw [hfoot]
      have : Ref.lerp x q.pos w - x = w • (q.pos - x) := by unfold Ref.lerp; module
      rw [this, norm_smul, Real.norm_eq_abs, abs_of_nonneg hx'.nonneg]
      exact mul_le_of_le_one_left (norm_nonneg _) hx'.le

theorem le_of_sq_le {a b : ℝ} (h : a ^ 2 ≤ b ^ 2) (hb : 0 ≤ b) : a ≤ b := (abs_le_of_sq_le_sq' h hb).2

/-- C59: while all inputs of a stroke are in a disk of radius `R`, its results are in a disk around the same center of a radius that
depends on the parameters only, however long the stroke is. The output rate has to be high enough for the spring, and the inputs
in order of time if wobble smoothing is enabled. -/
theorem C59_bounded_exact_partial (h : Session ops rs m) (hr : Regular ops rs) (hp : (known ops rs).params = some p)
    (hl : LoopOk p.position.loop) {M d : ℝ} (hrate : RateOk p M d) {x : ℂ} {R : ℝ}
    (hx : ∀ f ∈ strokeOf ops rs, ∃ y, f.input.position = V y ∧ ‖y - x‖ ≤ R)
    (hw : p.wobble.isEnabled = true → ((strokeOf ops rs).map Event.input).Pairwise (fun i j => (i.time ≤ᵇ j.time) = true)) :
    ∀ r ∈ resultsOf (strokeOf ops rs), ∃ y : ℂ, r.position = V y ∧
      ‖y - x‖ ^ 2 ≤ 640 * ((1 + M * d ^ 2) ^ 2 / (M * d ^ 2)) * R ^ 2 := by
  intro r hrb
  cases hs : strokeOf ops rs with
  | nil => rw [hs] at hrb; simp [resultsOf] at hrb
  | cons e b =>
  rw [hs] at hrb hx hw
  obtain ⟨P, m₀, h1, h2, hc, _⟩ := h.stroke hr hp hs
  obtain ⟨hM, hd, hst, hcap⟩ := hrate.stable h1
  obtain ⟨hcapE, hRle, hstart, hnear⟩ := course_near hrate h1 h2 hc hx hw
  have hR0 : 0 ≤ R := by
    obtain ⟨y, _, hy⟩ := hx e (by simp)
    exact (norm_nonneg _).trans hy
  obtain ⟨ρ, hρ0, hρ⟩ : ∃ ρ : ℝ, 0 ≤ ρ ∧ ρ ^ 2 = 640 * ((1 + M * d ^ 2) ^ 2 / (M * d ^ 2)) * R ^ 2 := by
    refine ⟨Real.sqrt _, Real.sqrt_nonneg _, Real.sq_sqrt ?_⟩
    rw [← hcapE]; exact (sq_nonneg R).trans hRle
  rw [hcapE, ← hρ] at hRle
  have hfinal : ∀ u, Ref.energy P x u ≤ Ref.cap P R → u.pos ∈ Metric.closedBall x ρ := by
    intro u hu
    rw [Metric.mem_closedBall, dist_eq_norm]
    refine le_of_sq_le ?_ hρ0
    rw [hρ, ← hcapE]
    exact (Ref.dist_le_energy hst h2 x u).trans (mul_le_mul_of_nonneg_left hu h2.mass.le)
  have hgoal : ∀ y ∈ Metric.closedBall x ρ, ‖y - x‖ ^ 2 ≤ 640 * ((1 + M * d ^ 2) ^ 2 / (M * d ^ 2)) * R ^ 2 := by
    intro y hy
    rw [Metric.mem_closedBall, dist_eq_norm] at hy
    rw [← hρ]; exact pow_le_pow_left₀ (norm_nonneg _) hy 2
  have hsplit : resultsOf (e :: b) = resultsOf [e] ++ resultsOf b := by simp [resultsOf]
  rw [hsplit, List.mem_append] at hrb
  rcases hrb with hrb | hrb
  · obtain ⟨e', rest', he, ht⟩ := course_tale h1 h2 hc
    obtain ⟨rfl, rfl⟩ := List.cons.inj he
    have hf := ht.first
    simp only [resultsOf, hf, List.flatMap_cons, List.flatMap_nil, Option.getD_some, List.append_nil, List.mem_singleton] at hrb
    obtain ⟨y, hy1, hy2⟩ := hx e (by simp)
    refine ⟨y, by rw [hrb]; exact hy1, hgoal y ?_⟩
    rw [Metric.mem_closedBall, dist_eq_norm]
    exact hy2.trans (le_of_sq_le hRle hρ0)
  · obtain ⟨b₁, f, b₂, out, hbf, hres, hrf⟩ := mem_resultsOf hrb
    rw [hbf] at hs
    obtain ⟨k, hk⟩ := List.mem_iff_getElem?.1 hrf
    rw [hbf] at hc
    obtain ⟨tips, j, h3, h4, h5⟩ := course_explained h1 h2 hc hl hres
    obtain ⟨_, _, hpoly, htips⟩ := hnear b₁ f b₂ hbf
    obtain ⟨t, q, _, h6, h7, h8⟩ := h5.get hk
    have hq := hfinal q (htips tips h3 q (List.mem_of_getElem? h6))
    by_cases hbare : p.stylus.useStrokeNormalProjection = false ∧ Bare (soFar e b₁ f)
    · exact ⟨q.pos, by rw [h7 hbare]; rfl, hgoal _ hq⟩
    · obtain ⟨foot, w, hx'⟩ := h8 hbare
      have hlen : j < (polyline P e (b₁ ++ [f])).length := by
        have := h4.lt hc.valid (by rw [Ne, List.map_eq_nil_iff, ← List.length_eq_zero_iff, polyline_length]; simp)
        rwa [List.length_map] at this
      refine ⟨_, congrArg TipState.position hx'.kin, hgoal _ ?_⟩
      refine Ref.lerp_mem (convex_closedBall _ _) ?_ hq hx'.nonneg hx'.le
      refine Metric.closedBall_subset_closedBall (le_of_sq_le hRle hρ0) ?_
      refine Ref.value_mem (convex_closedBall x R) ?_ ?_ rfl (fun k u hku => by have := hx'.proj; rw [hku] at this; exact this.on)
      · intro z hz
        obtain ⟨q', hq', rfl⟩ := List.mem_map.1 hz
        exact hpoly q' (List.mem_of_mem_drop hq')
      · rw [Ne, List.map_eq_nil_iff, List.drop_eq_nil_iff]; omega

/-! ### a rate that is too low -/

section Wild
open Ex

/-- Valid parameters whose drag is too much for the output rate. -/
def wild : StrokeModelParams XR XR :=
  { xparams with
    wobble := { xparams.wobble with isEnabled := false }
    position := { xparams.position with springMassConstant := fin 1, dragConstant := fin 4 }
    sampling := { xparams.sampling with minOutputRate := fin 1 } }

theorem wild_valid : validateStrokeModelParams wild = .ok := by unfold wild xparams; valid

/-- A Down at the origin. -/
def wildDown : Input XR XR := xin .down 0 0 (-1) (-1) (-1)

/-- Moves at 1, one per unit of time. -/
def wildMoves : ℕ → ℕ → List (Input XR XR)
  | _, 0 => []
  | k, n + 1 => xin .move 1 (k + 1) (-1) (-1) (-1) :: wildMoves (k + 1) n

theorem wildMoves_length (k n : ℕ) : (wildMoves k n).length = n := by
  induction n generalizing k with
  | zero => rfl
  | succ n ih => simp [wildMoves, ih]

theorem wildMoves_mem (k n : ℕ) : ∀ i ∈ wildMoves k n, i.position = V 1 ∧ i.eventType = .move := by
  induction n generalizing k with
  | zero => simp [wildMoves]
  | succ n ih =>
    intro i hi
    rcases List.mem_cons.1 hi with rfl | hi
    · exact ⟨rfl, rfl⟩
    · exact ih _ i hi

theorem wild_follows (e : EventType) (z : ℂ) (k n : ℕ) : XR.Follows wild (xin e z k (-1) (-1) (-1)) (wildMoves k n) := by
  induction n generalizing e z k with
  | zero => trivial
  | succ n ih =>
    refine ⟨fits_xin (by linarith), .inr ⟨rfl, ?_⟩, good_fin _, .inl rfl, ?_⟩
    · simp [xin, wild, xparams]
    · have := ih .move 1 (k + 1)
      push_cast at this
      exact this

/-- The wild parameters as seen by the README. -/
structure Wild (P : Ref.Params) : Prop where
  mass : P.mass = 1
  drag : P.drag = 4
  rate : P.rate = 1
  maxOut : P.maxOut = 20
  maxAngle : P.maxAngle = none
  wobble : P.wobble = none

theorem wild_realizes {P : Ref.Params} (h : Realizes wild P) (hv : P.Valid) : Wild P where
  mass := (fin_inj.1 h.mass).symm
  drag := (fin_inj.1 h.drag).symm
  rate := (fin_inj.1 h.rate).symm
  maxOut := h.maxOut.symm
  maxAngle := by
    have := h.maxAngle
    cases ha : P.maxAngle with
    | none => rfl
    | some a =>
      rw [ha] at this
      have h1 : (-1 : ℝ) = a := fin_inj.1 this
      have := (hv.maxAngle a ha).1
      linarith
  wobble := by
    have := h.wobble
    cases ha : P.wobble with
    | none => rfl
    | some a =>
      rw [ha] at this
      have h1 := congrArg WobbleParams.isEnabled this
      cases h1

/-- Each Move is one step. -/
theorem wild_step {P : Ref.Params} (h : Wild P) (s : Ref.State) :
    (Ref.advance P s (.move 1 (s.anchor.2 + 1))).1 =
      ⟨Ref.spring P s.tip (1, s.anchor.2 + 1), s.window, (1, s.anchor.2 + 1)⟩ := by
  have hn : Ref.steps P s.tip 1 (s.anchor.2 + 1 - s.anchor.2) = 1 := by
    simp [Ref.steps, h.rate, h.maxAngle]
  simp only [Ref.advance, Ref.move, Ref.smooth, h.wobble, hn, h.maxOut]
  simp [Ref.upsample, Ref.follow, Ref.lerp]

/-- The tip runs away, from one side to the other. -/
theorem wild_run {P : Ref.Params} (h : Wild P) (n : ℕ) (k : ℕ) (s : Ref.State) (ht : s.tip.time = s.anchor.2) (hk : s.anchor.2 = k)
    (σ ε ν : ℝ) (hσ : |σ| = 1) (h0 : 0 ≤ ε) (h1 : ε ≤ ν) (hp : s.tip.pos = 1 + (σ * ε : ℝ)) (hv : s.tip.vel = (σ * ν : ℝ)) :
    3 ^ n * ε ≤ ‖(Ref.after P s ((wildMoves k n).map touch)).tip.pos - 1‖ ∧
      (n ≠ 0 → 3 ^ n * ν ≤ ‖(Ref.after P s ((wildMoves k n).map touch)).tip.pos - 1‖) := by
  induction n generalizing k s σ ε ν with
  | zero =>
    refine ⟨?_, by simp⟩
    simp only [wildMoves, List.map_nil, Ref.after, List.foldl_nil, hp, pow_zero, one_mul, add_sub_cancel_left]
    rw [Complex.norm_real, Real.norm_eq_abs, abs_mul, hσ, one_mul]
    exact le_abs_self _
  | succ n ih =>
    have htouch : touch (xin .move 1 (k + 1) (-1) (-1) (-1)) = .move 1 (s.anchor.2 + 1) := by
      rw [hk]; rfl
    have hafter : Ref.after P s ((wildMoves k (n + 1)).map touch) =
        Ref.after P (Ref.advance P s (.move 1 (s.anchor.2 + 1))).1 ((wildMoves (k + 1) n).map touch) := by
      rw [wildMoves, List.map_cons, htouch]; rfl
    rw [hafter, wild_step h s]
    have hdt : s.anchor.2 + 1 - s.tip.time = 1 := by rw [ht]; ring
    have hvel : (Ref.spring P s.tip (1, s.anchor.2 + 1)).vel = ((-σ * (3 * ν + ε) : ℝ) : ℂ) := by
      simp only [Ref.spring, hdt, h.mass, h.drag, hp, hv]
      simp only [inv_one, one_smul, Complex.real_smul]
      push_cast; ring
    have hpos : (Ref.spring P s.tip (1, s.anchor.2 + 1)).pos = 1 + ((-σ * (3 * ν) : ℝ) : ℂ) := by
      have : (Ref.spring P s.tip (1, s.anchor.2 + 1)).pos = s.tip.pos + (Ref.spring P s.tip (1, s.anchor.2 + 1)).vel := by
        simp [Ref.spring, hdt]
      rw [this, hvel, hp]
      push_cast; ring
    have ih' := ih (k + 1) ⟨Ref.spring P s.tip (1, s.anchor.2 + 1), s.window, (1, s.anchor.2 + 1)⟩ rfl
      (by push_cast; rw [hk]) (-σ) (3 * ν) (3 * ν + ε) (by rw [abs_neg, hσ]) (by linarith) (by linarith) hpos hvel
    have hp3 : (0 : ℝ) < 3 ^ n := by positivity
    refine ⟨le_trans ?_ ih'.1, fun _ => le_trans ?_ ih'.1⟩
    · rw [pow_succ]; nlinarith
    · rw [pow_succ]; nlinarith

/-- C58 fails for parameters that pass validation but have a drag too strong for the output rate: the pen moves from 0 to
1 and rests there, and with each Move the modeled tip is three times as far away, on alternating sides. -/
theorem C58_refuted : ∃ p : StrokeModelParams XR XR, validateStrokeModelParams p = .ok ∧ p.position.loop.isEnabled = false ∧
    p.wobble.isEnabled = false ∧ ∀ n : ℕ, n ≠ 0 → n < 2147483640 → ∃ ops rs m e g b, Session ops rs m ∧ Regular ops rs ∧
      (known ops rs).params = some p ∧ strokeOf ops rs = e :: g :: b ∧ b.length = n ∧ (∀ f ∈ e :: g :: b, f.results ≠ none) ∧
      e.input.position = V 0 ∧ (∀ f ∈ g :: b, f.input.position = V 1) ∧
      ∃ q : Ref.Tip, (resultsOf (e :: g :: b)).getLast?.map Result.kin = some (tip q) ∧ 3 ^ n ≤ ‖q.pos - 1‖ := by
  refine ⟨wild, wild_valid, rfl, rfl, fun n hn0 hn => ?_⟩
  obtain ⟨rs, m, h1, h2, h3, h4, h5⟩ := exists_stroke wild_valid (i := wildDown) rfl
    ⟨isFinite_fin _, isFinite_fin _, isFinite_fin _⟩ (good_fin _) (is := wildMoves 0 (n + 1))
    (by have := wild_follows .down 0 0 (n + 1); push_cast at this; exact this) (by rw [wildMoves_length]; omega)
  cases hs : strokeOf (calls wild (wildDown :: wildMoves 0 (n + 1))) rs with
  | nil => rw [hs] at h4; cases h4
  | cons e rest =>
  rw [hs] at h4 h5
  obtain ⟨he, hrest⟩ := List.cons.inj h4
  cases rest with
  | nil => cases hrest
  | cons g b =>
  have hin : ∀ f ∈ g :: b, f.input ∈ wildMoves 0 (n + 1) := by
    intro f hf
    rw [← hrest]
    exact List.mem_map_of_mem hf
  refine ⟨_, rs, m, e, g, b, h1, h2, h3, hs, ?_, ?_, by rw [he]; rfl, fun f hf => (wildMoves_mem _ _ _ (hin f hf)).1, ?_⟩
  · have := congrArg List.length hrest
    rw [wildMoves_length] at this
    simpa using this
  · intro f hf h0
    have := h5 f hf
    rw [h0] at this; cases this
  · obtain ⟨P, m₀, k1, k2, hc, _⟩ := h1.stroke h2 h3 hs
    have hP := wild_realizes k1 k2
    refine ⟨(state P e (g :: b)).tip, ?_, ?_⟩
    · rw [← List.getLast?_map, course_results k1 k2 hc rfl, List.getLast?_map, Ref.told_last]
      · rfl
      · intro i hi
        obtain ⟨f, hf, rfl⟩ := List.mem_map.1 hi
        rw [touch_isMove, (wildMoves_mem _ _ _ (hin f hf)).2]
        simp
    · have hst : (g :: b).map (fun f => touch f.input) = (wildMoves 0 (n + 1)).map touch := by
        rw [← hrest, List.map_map]; rfl
      have hstart : Ref.start (toPoint e.input.position) (toReal e.input.time) = Ref.start 0 0 := by rw [he]; rfl
      rw [state, hst, hstart]
      have hafter : Ref.after P (Ref.start 0 0) ((wildMoves 0 (n + 1)).map touch) =
          Ref.after P (Ref.advance P (Ref.start 0 0) (.move 1 ((Ref.start 0 0).anchor.2 + 1))).1 ((wildMoves (0 + 1) n).map touch) := by
        rw [wildMoves, List.map_cons]
        have : touch (xin .move 1 ((0 : ℕ) + 1) (-1) (-1) (-1)) = .move 1 ((Ref.start 0 0).anchor.2 + 1) := by simp [touch, xin, Ref.start]
        rw [this]; rfl
      rw [hafter, wild_step hP _]
      have hv : (Ref.spring P (Ref.start 0 0).tip (1, (Ref.start 0 0).anchor.2 + 1)).vel = ((1 * 1 : ℝ) : ℂ) := by
        simp [Ref.spring, Ref.start, hP.mass, hP.drag]
      have hp : (Ref.spring P (Ref.start 0 0).tip (1, (Ref.start 0 0).anchor.2 + 1)).pos = 1 + ((1 * 0 : ℝ) : ℂ) := by
        simp [Ref.spring, Ref.start, hP.mass, hP.drag]
      have := (wild_run hP n (0 + 1) ⟨Ref.spring P (Ref.start 0 0).tip (1, (Ref.start 0 0).anchor.2 + 1), (Ref.start 0 0).window,
        (1, (Ref.start 0 0).anchor.2 + 1)⟩ rfl (by simp [Ref.start]) 1 0 1 (by simp) le_rfl zero_le_one hp hv).2 hn0
      simpa using this

/-- C59 fails for the same reason: all inputs are in a disk of radius 1, but there is no such bound for the results. -/
theorem C59_refuted : ∃ p : StrokeModelParams XR XR, validateStrokeModelParams p = .ok ∧ p.position.loop.isEnabled = false ∧
    p.wobble.isEnabled = false ∧ ∀ n : ℕ, n ≠ 0 → n < 2147483640 → ∃ ops rs m es, Session ops rs m ∧ Regular ops rs ∧
      (known ops rs).params = some p ∧ strokeOf ops rs = es ∧ (∀ f ∈ es, ∃ y, f.input.position = V y ∧ ‖y - 1‖ ≤ 1) ∧
      ∃ r ∈ resultsOf es, ∃ y, r.position = V y ∧ 3 ^ n ≤ ‖y - 1‖ := by
  obtain ⟨p, h1, h2, h3, h⟩ := C58_refuted
  refine ⟨p, h1, h2, h3, fun n h0 hn => ?_⟩
  obtain ⟨ops, rs, m, e, g, b, k1, k2, k3, k4, _, _, k7, k8, q, k9, k10⟩ := h n h0 hn
  refine ⟨ops, rs, m, _, k1, k2, k3, k4, ?_, ?_⟩
  · intro f hf
    rcases List.mem_cons.1 hf with rfl | hf
    · exact ⟨0, k7, by simp⟩
    · exact ⟨1, k8 f hf, by simp⟩
  · obtain ⟨r, hr, hq⟩ := Option.map_eq_some_iff.1 k9
    exact ⟨r, List.mem_of_getLast? hr, q.pos, congrArg TipState.position hq, k10⟩

end Wild

section Examples
open Ex

/-- The parameters of the unit tests have a rate that is high enough. -/
theorem Ex.rateOk : RateOk xparams (11 / 32400) 72 := by
  refine ⟨rfl, rfl, ⟨180, rfl, by norm_num, by norm_num⟩, by simp [xparams]⟩

/-- A Down, three Moves elsewhere, and the Up there. -/
def Ex.xrest : List (Input XR XR) :=
  [xin .down (pt 3 4) 0 0.2 1 2, xin .move (pt 3.2 4.2) (1 / 30) 0.3 1.1 2.1, xin .move (pt 3.2 4.2) (2 / 30) 0.4 1.2 2.2,
   xin .move (pt 3.2 4.2) (3 / 30) 0.4 1.2 2.2, xin .up (pt 3.2 4.2) (4 / 30) 0.5 1.3 2.3]

/-- The theorems apply to a pen that comes to rest, also with loop mitigation. -/
theorem Ex.xresting (p : StrokeModelParams XR XR) (hv : validateStrokeModelParams p = .ok) (h : p.sampling = xparams.sampling) :
    ∃ rs m e₁ e₂ g b₁ f, Session (calls p xrest) rs m ∧ Regular (calls p xrest) rs ∧ (known (calls p xrest) rs).params = some p ∧
      strokeOf (calls p xrest) rs = [e₁, e₂] ++ g :: [b₁, f] ∧ g.results ≠ none ∧ f.results ≠ none ∧
      (∀ c ∈ g :: [b₁, f], c.input.position = V (pt 3.2 4.2)) ∧
      (∀ c ∈ [e₁, e₂] ++ g :: [b₁, f], ∃ y, c.input.position = V y ∧ ‖y - pt 3.2 4.2‖ ≤ 1) ∧
      ((([e₁, e₂] ++ g :: [b₁, f]).map Event.input).Pairwise (fun i j => (i.time ≤ᵇ j.time) = true) ∧
        ∀ i ∈ [e₁, e₂], i.input.position = V (pt 3.2 4.2) ∨ toReal i.input.time + 1 / 25 < toReal g.input.time) ∧
      ∀ i ∈ [e₁, e₂] ++ [g], (fin (1 / 25) <ᵇ f.input.time - i.input.time) = true := by
  have hn : ∀ {e e' : EventType} {z z' : ℂ} {t t' pr pr' tl tl' o o' : ℝ}, (t' - t) * 180 ≤ 20 →
      Near p (xin e z t pr tl o) (xin e' z' t' pr' tl' o') := by
    intro e e' z z' t t' pr pr' tl tl' o o' ht
    refine .inr ⟨by rw [h]; rfl, ?_⟩
    rw [h]
    simpa [xin, xparams] using ht
  obtain ⟨rs, m, h1, h2, h3, h4, h5⟩ := exists_stroke hv (i := xin .down (pt 3 4) 0 0.2 1 2) rfl
    ⟨isFinite_fin _, isFinite_fin _, isFinite_fin _⟩ (good_fin _) (is := xrest.tail)
    ⟨fits_xin (by norm_num), hn (by norm_num), good_fin _, .inl rfl, fits_xin (by norm_num), hn (by norm_num), good_fin _, .inl rfl,
      fits_xin (by norm_num), hn (by norm_num), good_fin _, .inl rfl, fits_xin (by norm_num), hn (by norm_num), good_fin _,
      .inr ⟨rfl, rfl⟩, trivial⟩ (by simp [xrest])
  change Session (calls p xrest) rs m at h1
  change Regular (calls p xrest) rs at h2
  change (known (calls p xrest) rs).params = some p at h3
  change (strokeOf (calls p xrest) rs).map Event.input = xrest at h4
  change ∀ e ∈ strokeOf (calls p xrest) rs, e.results.isSome = true at h5
  match hl : strokeOf (calls p xrest) rs, h4, h5 with
  | [e₁, e₂, g, b₁, b₂], h4, h5 =>
    have hin := h4
    simp only [List.map_cons, List.map_nil, xrest, List.cons.injEq, and_true] at h4
    obtain ⟨i1, i2, i3, i4, i5⟩ := h4
    refine ⟨rs, m, e₁, e₂, g, b₁, b₂, h1, h2, h3, hl, ?_, ?_, ?_, ?_, ⟨?_, ?_⟩, ?_⟩
    · have := h5 g (by simp)
      intro h0; rw [h0] at this; cases this
    · have := h5 b₂ (by simp)
      intro h0; rw [h0] at this; cases this
    · simp [i3, i4, i5, xin]
    · have hz : ∀ z : ℂ, z = pt 3.2 4.2 → ‖z - pt 3.2 4.2‖ ≤ 1 := by rintro _ rfl; simp
      have hfirst : ‖pt 3 4 - pt 3.2 4.2‖ ≤ 1 := by
        refine le_of_sq_le ?_ zero_le_one
        rw [Ref.norm_sq_eq]
        simp only [pt, Complex.sub_re, Complex.sub_im]
        norm_num
      intro f hf
      simp only [List.cons_append, List.nil_append, List.mem_cons, List.not_mem_nil, or_false] at hf
      rcases hf with rfl | rfl | rfl | rfl | rfl
      · exact ⟨_, by rw [i1]; rfl, hfirst⟩
      · exact ⟨_, by rw [i2]; rfl, hz _ rfl⟩
      · exact ⟨_, by rw [i3]; rfl, hz _ rfl⟩
      · exact ⟨_, by rw [i4]; rfl, hz _ rfl⟩
      · exact ⟨_, by rw [i5]; rfl, hz _ rfl⟩
    · simp only [List.cons_append, List.nil_append, List.map_cons, List.map_nil, i1, i2, i3, i4, i5]
      simp only [List.pairwise_cons, List.mem_cons, List.not_mem_nil, or_false, forall_eq_or_imp, forall_eq, xin, fin_le,
        decide_eq_true_eq, false_imp_iff, implies_true, List.Pairwise.nil, and_true]
      norm_num
    · intro i hi
      simp only [List.mem_cons, List.not_mem_nil, or_false] at hi
      rcases hi with rfl | rfl
      · right; rw [i1, i3]; simp only [xin, toReal_fin]; norm_num
      · left; rw [i2]; rfl
    · intro i hi
      simp only [List.cons_append, List.nil_append, List.mem_cons, List.not_mem_nil, or_false] at hi
      rcases hi with rfl | rfl | rfl
      · rw [i1, i5]; simp only [xin, fin_sub, fin_lt, decide_eq_true_eq]; norm_num
      · rw [i2, i5]; simp only [xin, fin_sub, fin_lt, decide_eq_true_eq]; norm_num
      · rw [i3, i5]; simp only [xin, fin_sub, fin_lt, decide_eq_true_eq]; norm_num
  | [], h4, _ => simp [xrest] at h4
  | [_], h4, _ => simp [xrest] at h4
  | [_, _], h4, _ => simp [xrest] at h4
  | [_, _, _], h4, _ => simp [xrest] at h4
  | [_, _, _, _], h4, _ => simp [xrest] at h4
  | _ :: _ :: _ :: _ :: _ :: _ :: _, h4, _ => simp [xrest] at h4

example : RateOk xparams (11 / 32400) 72 ∧ xparams.position.loop.isEnabled = false ∧ xparams.wobble.timeout = fin (1 / 25) ∧
    validateStrokeModelParams xparams = .ok := ⟨rateOk, rfl, rfl, xparams_valid⟩

/-- With loop mitigation. -/
example : ∃ p, RateOk p (11 / 32400) 72 ∧ LoopOk p.position.loop ∧ p.position.loop.isEnabled = true ∧ p.stylus.minInputSamples = 3 ∧
    p.stylus.minSampleDuration = fin (1 / 25) ∧ validateStrokeModelParams p = .ok ∧ p.sampling = xparams.sampling :=
  ⟨{ xloop with stylus := { xloop.stylus with minInputSamples := 3 } },
    ⟨rfl, rfl, ⟨180, rfl, by norm_num, by norm_num⟩, by simp [xloop, xparams]⟩, xloop_ok, rfl, rfl, rfl,
    by unfold xloop xparams; valid, rfl⟩

end Examples
end
end Ink
