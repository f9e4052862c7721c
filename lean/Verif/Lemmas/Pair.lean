import Verif.Lemmas.Regen

/-!
# Functions of two arguments that are close to each other
-/

open Matrix Filter Topology Asymptotics

namespace Mrob

open Spec

attribute [local instance] Matrix.linftyOpNormedAddCommGroup Matrix.linftyOpNormedSpace Matrix.linftyOpNormedRing

variable {T : Type} {F : Filter T} {η : T → ℝ}

/-- Both functions tend to `a`; their difference is at most of the order of `η`. -/
structure Pair (F : Filter T) (η : T → ℝ) {E : Type} [NormedAddCommGroup E] (f g : T → E) (a : E) : Prop where
  diff : (fun t => f t - g t) =O[F] η
  left : Tendsto f F (𝓝 a)
  right : Tendsto g F (𝓝 a)

namespace Pair

section group

variable {E : Type} [NormedAddCommGroup E] {f g f' g' : T → E} {a b : E}

theorem const (a : E) : Pair F η (fun _ => a) (fun _ => a) a :=
  ⟨by simpa using isBigO_zero η F, tendsto_const_nhds, tendsto_const_nhds⟩

theorem add (h : Pair F η f g a) (h' : Pair F η f' g' b) : Pair F η (fun t => f t + f' t) (fun t => g t + g' t) (a + b) := by
  refine ⟨(h.diff.add h'.diff).congr_left fun t => ?_, h.left.add h'.left, h.right.add h'.right⟩
  abel

theorem sub (h : Pair F η f g a) (h' : Pair F η f' g' b) : Pair F η (fun t => f t - f' t) (fun t => g t - g' t) (a - b) := by
  refine ⟨(h.diff.sub h'.diff).congr_left fun t => ?_, h.left.sub h'.left, h.right.sub h'.right⟩
  abel

theorem smul [NormedSpace ℝ E] {c d : T → ℝ} {k : ℝ} (hc : Pair F η c d k) (h : Pair F η f g a) :
    Pair F η (fun t => c t • f t) (fun t => d t • g t) (k • a) := by
  refine ⟨?_, hc.left.smul h.left, hc.right.smul h.right⟩
  have h1 := IsBigO.smul (hc.left.isBigO_one ℝ) h.diff
  have h2 := IsBigO.smul hc.diff (h.right.isBigO_one ℝ)
  simp only [smul_eq_mul, one_mul, mul_one] at h1 h2
  refine (h1.add h2).congr_left fun t => ?_
  rw [smul_sub, sub_smul]; abel

theorem mono {l : Filter T} (h : Pair F η f g a) (hl : l ≤ F) : Pair l η f g a :=
  ⟨h.diff.mono hl, h.left.mono_left hl, h.right.mono_left hl⟩

theorem congr (h : Pair F η f g a) (e : ∀ᶠ t in F, f t = f' t) (e' : ∀ᶠ t in F, g t = g' t) : Pair F η f' g' a := by
  refine ⟨h.diff.congr' ?_ EventuallyEq.rfl, h.left.congr' e, h.right.congr' e'⟩
  filter_upwards [e, e'] with t h1 h2
  rw [h1, h2]

end group

theorem mul {E : Type} [NormedRing E] {f g f' g' : T → E} {a b : E} (h : Pair F η f g a) (h' : Pair F η f' g' b) :
    Pair F η (fun t => f t * f' t) (fun t => g t * g' t) (a * b) := by
  refine ⟨?_, h.left.mul h'.left, h.right.mul h'.right⟩
  have h1 := IsBigO.mul (h.left.isBigO_one ℝ) h'.diff
  have h2 := IsBigO.mul h.diff (h'.right.isBigO_one ℝ)
  simp only [one_mul, mul_one] at h1 h2
  refine (h1.add h2).congr_left fun t => ?_
  noncomm_ring

theorem comp {f g : T → ℝ} {a : ℝ} (h : Pair F η f g a) {φ : ℝ → ℝ} {φ' : ℝ} (hφ : HasStrictDerivAt φ φ' a) :
    Pair F η (fun t => φ (f t)) (fun t => φ (g t)) (φ a) := by
  refine ⟨?_, (HasStrictDerivAt.hasDerivAt hφ).continuousAt.tendsto.comp h.left, (HasStrictDerivAt.hasDerivAt hφ).continuousAt.tendsto.comp h.right⟩
  have h1 := hφ.hasStrictFDerivAt.isBigO_sub
  have h2 := h1.comp_tendsto (h.left.prodMk_nhds h.right)
  exact h2.trans h.diff

theorem div {f g f' g' : T → ℝ} {a b : ℝ} (h : Pair F η f g a) (h' : Pair F η f' g' b) (hb : b ≠ 0) :
    Pair F η (fun t => f t / f' t) (fun t => g t / g' t) (a / b) := by
  have := h.mul (h'.comp (φ := fun x => x⁻¹) (hasStrictDerivAt_inv hb))
  simpa only [div_eq_mul_inv] using this

theorem apply {v u : T → Vec3} {a : Vec3} (h : Pair F η v u a) (i : Fin 3) : Pair F η (fun t => v t i) (fun t => u t i) (a i) :=
  ⟨isBigO_pi.mp h.diff i, tendsto_pi_nhds.mp h.left i, tendsto_pi_nhds.mp h.right i⟩

theorem vec {v u : T → Vec3} {a : Vec3} (h : ∀ i, Pair F η (fun t => v t i) (fun t => u t i) (a i)) : Pair F η v u a :=
  ⟨isBigO_pi.mpr fun i => (h i).diff, tendsto_pi_nhds.mpr fun i => (h i).left, tendsto_pi_nhds.mpr fun i => (h i).right⟩

theorem mat_lim {M : T → Mat3} {A : Mat3} : Tendsto M F (𝓝 A) ↔ ∀ i j, Tendsto (fun t => M t i j) F (𝓝 (A i j)) := by
  constructor
  · intro h i j
    exact ((continuous_apply_apply (ρ := fun _ _ => ℝ) i j).tendsto A).comp h
  · intro h
    exact tendsto_pi_nhds.mpr fun i => tendsto_pi_nhds.mpr fun j => h i j

theorem entry {M N : T → Mat3} {A : Mat3} (h : Pair F η M N A) (i j : Fin 3) :
    Pair F η (fun t => M t i j) (fun t => N t i j) (A i j) :=
  ⟨mat_bigO.mp h.diff i j, mat_lim.mp h.left i j, mat_lim.mp h.right i j⟩

theorem mat {M N : T → Mat3} {A : Mat3} (h : ∀ i j, Pair F η (fun t => M t i j) (fun t => N t i j) (A i j)) : Pair F η M N A :=
  ⟨mat_bigO.mpr fun i j => (h i j).diff, mat_lim.mpr fun i j => (h i j).left, mat_lim.mpr fun i j => (h i j).right⟩

theorem hat {v u : T → Vec3} {a : Vec3} (h : Pair F η v u a) : Pair F η (fun t => hat3 (v t)) (fun t => hat3 (u t)) (hat3 a) := by
  have neg : ∀ i, Pair F η (fun t => - v t i) (fun t => - u t i) (- a i) := fun i => by
    have := (const (F := F) (η := η) (0 : ℝ)).sub (h.apply i)
    simpa only [zero_sub] using this
  refine mat fun i j => ?_
  fin_cases i <;> fin_cases j <;>
    first
      | exact const 0
      | exact h.apply _
      | exact neg _

theorem skew {M N : T → Mat3} {A : Mat3} (h : Pair F η M N A) :
    Pair F η (fun t => skewVec (M t)) (fun t => skewVec (N t)) (skewVec A) := by
  refine vec fun i => ?_
  simp only [skewVec]
  fin_cases i <;> exact ((h.entry _ _).sub (h.entry _ _)).div (const 2) two_ne_zero

theorem cosOf {M N : T → Mat3} {A : Mat3} (h : Pair F η M N A) : Pair F η (fun t => cosOf (M t)) (fun t => cosOf (N t)) (Mrob.cosOf A) := by
  have := (((h.entry 0 0).add (h.entry 1 1)).add (h.entry 2 2)).sub (const (1 : ℝ)) |>.div (const 2) two_ne_zero
  simpa only [cosOf_eq] using this

theorem sqNorm {v u : T → Vec3} {a : Vec3} (h : Pair F η v u a) : Pair F η (fun t => sqNorm (v t)) (fun t => sqNorm (u t)) (Mrob.sqNorm a) := by
  have := (((h.apply 0).mul (h.apply 0)).add ((h.apply 1).mul (h.apply 1))).add ((h.apply 2).mul (h.apply 2))
  simpa only [sqNorm3] using this

theorem vnorm {v u : T → Vec3} {a : Vec3} (h : Pair F η v u a) (ha : a ≠ 0) :
    Pair F η (fun t => vnorm (v t)) (fun t => vnorm (u t)) (Mrob.vnorm a) := by
  have hne : Mrob.sqNorm a ≠ 0 := by
    intro h0
    exact ha (vnorm_eq_zero.mp (by rw [Mrob.vnorm, h0, Real.sqrt_zero]))
  exact h.sqNorm.comp (φ := Real.sqrt) (Real.hasStrictDerivAt_sqrt hne)

theorem rod {a b a' b' : T → ℝ} {v u : T → Vec3} {a0 b0 : ℝ} {u0 : Vec3} (ha : Pair F η a a' a0) (hb : Pair F η b b' b0)
    (h : Pair F η v u u0) : Pair F η (fun t => rod (a t) (b t) (v t)) (fun t => rod (a' t) (b' t) (u t)) (Mrob.rod a0 b0 u0) :=
  ((const (1 : Mat3)).add (ha.smul h.hat)).add (hb.smul (h.hat.mul h.hat))

section large

variable {w v : T → Vec3} {w0 : Vec3} {o p : T → ℝ} (hw : Pair F η w v w0) (ho : Pair F η o p (Mrob.vnorm w0)) (h0 : 5e-3 < Mrob.vnorm w0)
  (hpi : Mrob.vnorm w0 ≤ Real.pi)

include hw h0 in
theorem exp : Pair F η (fun t => (SO3.ofVec (w t)).R) (fun t => (SO3.ofVec (v t)).R) (SO3.ofVec w0).R := by
  have hne : w0 ≠ 0 := by rintro rfl; rw [vnorm_zero3] at h0; norm_num at h0
  have hn := hw.vnorm hne
  have hq := hw.sqNorm
  have hn0 : Mrob.vnorm w0 ≠ 0 := by intro h; rw [h] at h0; norm_num at h0
  have hq0 : Mrob.sqNorm w0 ≠ 0 := by rw [← vnorm_sq]; exact pow_ne_zero 2 hn0
  have c1 := (hn.comp (φ := Real.sin) (Real.hasStrictDerivAt_sin _)).div hn hn0
  have c2 := ((const (1 : ℝ)).sub (hn.comp (φ := Real.cos) (Real.hasStrictDerivAt_cos _))).div hq hq0
  have key := Pair.rod c1 c2 hw
  have e : ∀ u : Vec3, 5e-3 < Mrob.vnorm u →
      Mrob.rod (Real.sin (Mrob.vnorm u) / Mrob.vnorm u) ((1 - Real.cos (Mrob.vnorm u)) / Mrob.sqNorm u) u = (SO3.ofVec u).R := by
    intro u hu
    rw [ofVec_R, expC1_of_ge, expC2_of_ge] <;> linarith
  rw [e _ h0] at key
  exact key.congr ((hn.left.eventually_const_lt h0).mono fun t ht => e _ ht) ((hn.right.eventually_const_lt h0).mono fun t ht => e _ ht)

include hw h0 in
theorem vMat : Pair F η (fun t => vMat (w t)) (fun t => vMat (v t)) (Mrob.vMat w0) := by
  have hne : w0 ≠ 0 := by rintro rfl; rw [vnorm_zero3] at h0; norm_num at h0
  have hn := hw.vnorm hne
  have hq := hw.sqNorm
  have hn0 : Mrob.vnorm w0 ≠ 0 := by intro h; rw [h] at h0; norm_num at h0
  have hq0 : Mrob.sqNorm w0 ≠ 0 := by rw [← vnorm_sq]; exact pow_ne_zero 2 hn0
  have c2 := ((const (1 : ℝ)).sub (hn.comp (φ := Real.cos) (Real.hasStrictDerivAt_cos _))).div hq hq0
  have c3 := ((hn.sub (hn.comp (φ := Real.sin) (Real.hasStrictDerivAt_sin _))).div hq hq0).div hn hn0
  have key := Pair.rod c2 c3 hw
  have e : ∀ v : Vec3, 5e-3 < Mrob.vnorm v → Mrob.rod ((1 - Real.cos (Mrob.vnorm v)) / Mrob.sqNorm v)
      ((Mrob.vnorm v - Real.sin (Mrob.vnorm v)) / Mrob.sqNorm v / Mrob.vnorm v) v = Mrob.vMat v := by
    intro v hv
    rw [Mrob.vMat, vC2, vC3, if_pos (by linarith), if_pos (by linarith)]
  rw [e _ h0] at key
  exact key.congr ((hn.left.eventually_const_lt h0).mono fun t ht => e _ ht) ((hn.right.eventually_const_lt h0).mono fun t ht => e _ ht)

include hw ho h0 hpi in
theorem vInv : Pair F η (fun t => vInv (o t) (w t)) (fun t => vInv (p t) (v t)) (Mrob.vInv (Mrob.vnorm w0) w0) := by
  have hn0 : Mrob.vnorm w0 ≠ 0 := by intro h; rw [h] at h0; norm_num at h0
  have hc : 1 - Real.cos (Mrob.vnorm w0) ≠ 0 := by
    intro h
    have h2 := Real.pi_pos
    have := (Real.cos_eq_one_iff_of_lt_of_lt (x := Mrob.vnorm w0) (by linarith) (by linarith)).mp (by linarith)
    exact hn0 this
  have k := (((const (F := F) (η := η) (1 : ℝ)).div ho hn0).div ho hn0).mul ((const (1 : ℝ)).sub
    (((const (0.5 : ℝ)).mul (ho.comp (φ := Real.sin) (Real.hasStrictDerivAt_sin _))).div
      (((const (1 : ℝ)).sub (ho.comp (φ := Real.cos) (Real.hasStrictDerivAt_cos _))).div ho hn0)
      (div_ne_zero hc hn0)))
  have k1 : Pair F η (fun t => lnK1 (o t)) (fun t => lnK1 (p t)) (lnK1 (Mrob.vnorm w0)) := by
    rw [lnK1, if_pos h0]
    refine k.congr ?_ ?_
    · filter_upwards [ho.left.eventually_const_lt h0] with t ht
      rw [lnK1, if_pos ht]
    · filter_upwards [ho.right.eventually_const_lt h0] with t ht
      rw [lnK1, if_pos ht]
  exact Pair.rod (const _) k1 hw

end large

end Pair

end Mrob
