import Verif.Lemmas.LnDeriv
import Mathlib.Analysis.SpecialFunctions.Complex.LogDeriv
import Mathlib.Analysis.SpecialFunctions.Trigonometric.Angle

/-!
# Helper lemmas for the factors
-/

open Matrix Filter Topology

namespace Mrob

open Spec

theorem vec3_ext {a b : Vec3} (h0 : a 0 = b 0) (h1 : a 1 = b 1) (h2 : a 2 = b 2) : a = b := by
  funext i
  rcases (by decide +revert : i = 0 ∨ i = 1 ∨ i = 2) with rfl | rfl | rfl
  exacts [h0, h1, h2]

theorem vec2_ext {a b : Vec2} (h0 : a 0 = b 0) (h1 : a 1 = b 1) : a = b := by
  funext i
  rcases (by decide +revert : i = 0 ∨ i = 1) with rfl | rfl
  exacts [h0, h1]

/-- Wrapping commutes with shifts. -/
theorem wrapAngle_congr {a b : ℝ} (h : SameAngle a b) : wrapAngle a = wrapAngle b := (wrapAngle_eq_iff a b).mpr h

theorem sameAngle_wrap (a : ℝ) : SameAngle (wrapAngle a) a := (wrapAngle_spec a).2.2

theorem _root_.Spec.SameAngle.symm {a b : ℝ} (h : SameAngle a b) : SameAngle b a := by
  obtain ⟨k, hk⟩ := h; exact ⟨-k, by rw [hk]; push_cast; ring⟩

theorem _root_.Spec.SameAngle.trans {a b c : ℝ} (h : SameAngle a b) (h' : SameAngle b c) : SameAngle a c := by
  obtain ⟨k, hk⟩ := h; obtain ⟨l, hl⟩ := h'; exact ⟨k + l, by rw [hk, hl]; push_cast; ring⟩

theorem _root_.Spec.SameAngle.add {a b c d : ℝ} (h : SameAngle a b) (h' : SameAngle c d) : SameAngle (a + c) (b + d) := by
  obtain ⟨k, hk⟩ := h; obtain ⟨l, hl⟩ := h'; exact ⟨k + l, by rw [hk, hl]; push_cast; ring⟩

theorem _root_.Spec.SameAngle.sub {a b c d : ℝ} (h : SameAngle a b) (h' : SameAngle c d) : SameAngle (a - c) (b - d) := by
  obtain ⟨k, hk⟩ := h; obtain ⟨l, hl⟩ := h'; exact ⟨k - l, by rw [hk, hl]; push_cast; ring⟩

theorem _root_.Spec.SameAngle.refl (a : ℝ) : SameAngle a a := ⟨0, by simp⟩

theorem _root_.Spec.SameAngle.cos {a b : ℝ} (h : SameAngle a b) : Real.cos a = Real.cos b := by
  obtain ⟨k, rfl⟩ := h; exact Real.cos_add_int_mul_two_pi b k

theorem _root_.Spec.SameAngle.sin {a b : ℝ} (h : SameAngle a b) : Real.sin a = Real.sin b := by
  obtain ⟨k, rfl⟩ := h; exact Real.sin_add_int_mul_two_pi b k

theorem sameAngle_of_cos_sin {a b : ℝ} (hc : Real.cos a = Real.cos b) (hs : Real.sin a = Real.sin b) :
    SameAngle a b := by
  have h := Real.Angle.cos_sin_inj hc hs
  rw [Real.Angle.angle_eq_iff_two_pi_dvd_sub] at h
  obtain ⟨k, hk⟩ := h
  exact ⟨k, by linarith⟩

theorem sameAngle_iff_angle {a b : ℝ} : SameAngle a b ↔ (a : Real.Angle) = (b : Real.Angle) := by
  rw [Real.Angle.angle_eq_iff_two_pi_dvd_sub]
  exact ⟨fun ⟨k, hk⟩ => ⟨k, by rw [hk]; ring⟩, fun ⟨k, hk⟩ => ⟨k, by linarith⟩⟩

theorem wrapAngle_eq_zero {a : ℝ} : wrapAngle a = 0 ↔ SameAngle a 0 := by
  have hp := Real.pi_pos
  have h := wrapAngle_eq_iff a 0
  rw [wrapAngle_of_mem (a := 0) (by linarith) hp] at h
  exact h

theorem wrap2_eq_zero {x : Vec3} : wrap2 x = 0 ↔ x 0 = 0 ∧ x 1 = 0 ∧ SameAngle (x 2) 0 := by
  rw [← wrapAngle_eq_zero]
  constructor
  · intro h
    exact ⟨congrFun h 0, congrFun h 1, congrFun h 2⟩
  · rintro ⟨h0, h1, h2⟩
    exact vec3_ext h0 h1 h2

theorem wrap2_congr {a b : Vec3} (h0 : a 0 = b 0) (h1 : a 1 = b 1) (h2 : SameAngle (a 2) (b 2)) :
    wrap2 a = wrap2 b := by
  rw [wrap2, wrap2, h0, h1, wrapAngle_congr h2]

theorem prior2dRes_wrap (obs x : Vec3) : prior2dRes obs (wrap2 x) = prior2dRes obs x :=
  wrap2_congr rfl rfl ((sameAngle_wrap (x 2)).sub (SameAngle.refl _))

theorem rel2dRes_wrap (obs xo xt : Vec3) : rel2dRes obs (wrap2 xo) (wrap2 xt) = rel2dRes obs xo xt := by
  have hc : Real.cos (wrap2 xo 2) = Real.cos (xo 2) := cos_wrapAngle _
  have hs : Real.sin (wrap2 xo 2) = Real.sin (xo 2) := sin_wrapAngle _
  simp only [rel2dRes, hc, hs]
  refine wrap2_congr rfl rfl ?_
  exact ((sameAngle_wrap (xt 2)).sub (sameAngle_wrap (xo 2))).sub (SameAngle.refl (obs 2))

theorem odomRes_wrap (obs xo xt : Vec3) : odomRes obs (wrap2 xo) (wrap2 xt) = odomRes obs xo xt := by
  have h : SameAngle (wrap2 xo 2 + obs 0) (xo 2 + obs 0) := (sameAngle_wrap _).add (SameAngle.refl _)
  simp only [odomRes, odomPredict, h.cos, h.sin]
  refine wrap2_congr rfl rfl ?_
  exact (h.add (SameAngle.refl (obs 2))).sub (sameAngle_wrap (xt 2))

theorem land2dRes_near {obs : Vec2} {x : Vec3} {l : Vec2}
    (h : (l 0 - x 0) * (l 0 - x 0) + (l 1 - x 1) * (l 1 - x 1) < 1e-6) : land2dRes obs x l = 0 := if_pos h

theorem land2dRes_far {obs : Vec2} {x : Vec3} {l : Vec2}
    (h : ¬ (l 0 - x 0) * (l 0 - x 0) + (l 1 - x 1) * (l 1 - x 1) < 1e-6) : land2dRes obs x l =
      ![Real.sqrt ((l 0 - x 0) * (l 0 - x 0) + (l 1 - x 1) * (l 1 - x 1)) - obs 0,
        wrapAngle (catan2 (l 1 - x 1) (l 0 - x 0) - x 2 - obs 1)] := if_neg h

theorem land2dRes_wrap (obs : Vec2) (x : Vec3) (l : Vec2) : land2dRes obs (wrap2 x) l = land2dRes obs x l := by
  by_cases h : (l 0 - x 0) * (l 0 - x 0) + (l 1 - x 1) * (l 1 - x 1) < 1e-6
  · rw [land2dRes_near (x := wrap2 x) h, land2dRes_near h]
  · rw [land2dRes_far (x := wrap2 x) h, land2dRes_far h]
    rw [wrap2_0, wrap2_1, wrap2_2]
    rw [wrapAngle_congr (((SameAngle.refl _).sub (sameAngle_wrap (x 2))).sub (SameAngle.refl _))]

/-! ### Bearing -/

theorem arg_expI_coe (c : ℝ) : (Complex.arg (Complex.exp ((c : ℂ) * Complex.I)) : Real.Angle) = (c : Real.Angle) := by
  have h := Complex.arg_cos_add_sin_mul_I_coe_angle (c : Real.Angle)
  rw [Real.Angle.cos_coe, Real.Angle.sin_coe, Complex.ofReal_cos, Complex.ofReal_sin, ← Complex.exp_mul_I] at h
  exact h

theorem wrap_arg {z : ℂ} (hz : z ≠ 0) (c : ℝ) (h : z * Complex.exp (((-c : ℝ) : ℂ) * Complex.I) ∈ Complex.slitPlane) :
    wrapAngle (Complex.arg z - c) = Complex.arg (z * Complex.exp (((-c : ℝ) : ℂ) * Complex.I)) := by
  refine wrapAngle_eq_of ⟨(Complex.neg_pi_lt_arg _).le, ?_⟩ ?_
  · exact lt_of_le_of_ne (Complex.arg_le_pi _) (Complex.mem_slitPlane_iff_arg.mp h).1
  · change SameAngle _ _
    rw [sameAngle_iff_angle, Complex.arg_mul_coe_angle hz (Complex.exp_ne_zero _), arg_expI_coe]
    rw [← Real.Angle.coe_add]; congr 1

theorem arg_mem_slitPlane {z : ℂ} (hz : z ≠ 0) (c : ℝ) (h : wrapAngle (Complex.arg z - c) ≠ -Real.pi) :
    z * Complex.exp (((-c : ℝ) : ℂ) * Complex.I) ∈ Complex.slitPlane := by
  rw [Complex.mem_slitPlane_iff_arg]
  refine ⟨fun he => h ?_, mul_ne_zero hz (Complex.exp_ne_zero _)⟩
  have hp := Real.pi_pos
  refine wrapAngle_eq_of ⟨le_rfl, by linarith⟩ ?_
  have h1 : SameAngle (Complex.arg z - c) Real.pi := by
    rw [sameAngle_iff_angle, ← he, Complex.arg_mul_coe_angle hz (Complex.exp_ne_zero _), arg_expI_coe,
      ← Real.Angle.coe_add]
    congr 1
  exact h1.trans ⟨1, by push_cast; ring⟩

/-- Derivative of a wrapped bearing. -/
theorem bearing_deriv {x y c : ℝ → ℝ} {x' y' c' t : ℝ} (hx : HasDerivAt x x' t) (hy : HasDerivAt y y' t)
    (hc : HasDerivAt c c' t) (h0 : 0 < x t * x t + y t * y t)
    (hcut : wrapAngle (catan2 (y t) (x t) - c t) ≠ -Real.pi) :
    HasDerivAt (fun s => wrapAngle (catan2 (y s) (x s) - c s))
      ((x t * y' - y t * x') / (x t * x t + y t * y t) - c') t := by
  have hz : HasDerivAt (fun s => (⟨x s, y s⟩ : ℂ)) ⟨x', y'⟩ t := by
    have h1 := hx.ofReal_comp.add (hy.ofReal_comp.mul_const Complex.I)
    refine (h1.congr_deriv ?_).congr_of_eventuallyEq (Eventually.of_forall fun s => ?_)
    · apply Complex.ext <;> simp
    · apply Complex.ext <;> simp
  have he : HasDerivAt (fun s => Complex.exp (((-c s : ℝ) : ℂ) * Complex.I))
      (Complex.exp (((-c t : ℝ) : ℂ) * Complex.I) * (((-c' : ℝ) : ℂ) * Complex.I)) t :=
    (hc.neg.ofReal_comp.mul_const Complex.I).cexp
  have hne : (⟨x t, y t⟩ : ℂ) ≠ 0 := by
    intro h
    have h1 : x t = 0 := congrArg Complex.re h
    have h2 : y t = 0 := congrArg Complex.im h
    rw [h1, h2] at h0; norm_num at h0
  have hu := hz.mul he
  have hslit := arg_mem_slitPlane hne (c t) hcut
  have hl := (Complex.imCLM.hasFDerivAt.comp_hasDerivAt t (hu.clog_real hslit))
  have hu0 : ContinuousAt (fun s => (⟨x s, y s⟩ : ℂ) * Complex.exp (((-c s : ℝ) : ℂ) * Complex.I)) t := hu.continuousAt
  refine (hl.congr_deriv ?_).congr_of_eventuallyEq ?_
  · have hexp := Complex.exp_ne_zero (((-c t : ℝ) : ℂ) * Complex.I)
    have e : ((⟨x', y'⟩ : ℂ) * Complex.exp (((-c t : ℝ) : ℂ) * Complex.I) +
        (⟨x t, y t⟩ : ℂ) * (Complex.exp (((-c t : ℝ) : ℂ) * Complex.I) * (((-c' : ℝ) : ℂ) * Complex.I))) /
        ((⟨x t, y t⟩ : ℂ) * Complex.exp (((-c t : ℝ) : ℂ) * Complex.I)) =
        (⟨x', y'⟩ : ℂ) / ⟨x t, y t⟩ + ((-c' : ℝ) : ℂ) * Complex.I := by
      field_simp
    simp only [Pi.mul_apply]
    rw [e]
    simp [Complex.div_im, Complex.normSq_apply]
    field_simp
    ring
  · have hmem : ∀ᶠ s in 𝓝 t, (⟨x s, y s⟩ : ℂ) * Complex.exp (((-c s : ℝ) : ℂ) * Complex.I) ∈ Complex.slitPlane :=
      hu0.eventually_mem (Complex.isOpen_slitPlane.mem_nhds hslit)
    have hnz : ∀ᶠ s in 𝓝 t, (⟨x s, y s⟩ : ℂ) ≠ 0 := hz.continuousAt.eventually_ne hne
    filter_upwards [hmem, hnz] with s h1 h2
    simp only [catan2, Function.comp, Complex.imCLM_apply, Complex.log_im, Pi.mul_apply]
    exact wrap_arg h2 (c s) h1

end Mrob
