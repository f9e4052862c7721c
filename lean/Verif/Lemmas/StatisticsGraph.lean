import Verif.Lemmas.Statistics
import Verif.Lemmas.Convergence
import Verif.Lemmas.Getters
import Verif.Lemmas.PlaneGrad
import Verif.Props.SE3Ln

/-!
# Graphs whose measurements have errors
-/

open Matrix

namespace Mrob

open World Spec

/-! ### Residuals of noisy measurements at the true states -/

theorem wrap2_noise {a e : Vec3} (h : wrap2 a = 0) (he : |e 2| < Real.pi) : wrap2 (a - e) = -e := by
  obtain ⟨h0, h1, k, hk⟩ := wrap2_eq_zero.mp h
  have hb := abs_lt.mp he
  funext i
  fin_cases i
  · change a 0 - e 0 = -e 0; rw [h0, zero_sub]
  · change a 1 - e 1 = -e 1; rw [h1, zero_sub]
  · change wrapAngle (a 2 - e 2) = -e 2
    exact wrapAngle_eq_of ⟨by linarith, by linarith⟩ ⟨k, by rw [hk]; ring⟩

theorem land2d_noise {z e : Vec2} {x : Vec3} {y : Vec2} (h : land2dRes z x y = 0) (hq : 1e-6 < (y 0 - x 0) ^ 2 + (y 1 - x 1) ^ 2)
    (he : |e 1| < Real.pi) : land2dRes (z + e) x y = -e := by
  have hb := abs_lt.mp he
  have hq' : ¬ (y 0 - x 0) * (y 0 - x 0) + (y 1 - x 1) * (y 1 - x 1) < 1e-6 := by nlinarith
  rw [land2dRes, if_neg hq'] at h ⊢
  have h0 := congrFun h 0
  have h1 := congrFun h 1
  change Real.sqrt _ - z 0 = 0 at h0
  change wrapAngle (_ - x 2 - z 1) = 0 at h1
  obtain ⟨k, hk⟩ := wrapAngle_eq_zero.mp h1
  funext i
  fin_cases i
  · change Real.sqrt _ - (z 0 + e 0) = -e 0
    linarith
  · change wrapAngle (_ - x 2 - (z 1 + e 1)) = -e 1
    exact wrapAngle_eq_of ⟨by linarith, by linarith⟩ ⟨k, by linarith⟩

theorem land2d_true {z : Vec2} {x : Vec3} {y : Vec2} (hfar : 1e-3 < z 0)
    (h : y = planarPoint x ![z 0 * Real.cos (z 1), z 0 * Real.sin (z 1)]) :
    land2dRes z x y = 0 ∧ 1e-6 < (y 0 - x 0) ^ 2 + (y 1 - x 1) ^ 2 := by
  have e : y = land2dInit z x := by
    rw [h]
    funext i
    fin_cases i
    · simp [planarPoint, land2dInit, NodeKind.store, Real.cos_add]; ring
    · simp [planarPoint, land2dInit, NodeKind.store, Real.sin_add]; ring
  refine ⟨by rw [e]; exact C28_land2d_partial z x (by linarith), ?_⟩
  have : (y 0 - x 0) ^ 2 + (y 1 - x 1) ^ 2 = z 0 ^ 2 := by
    rw [e]
    simp [land2dInit, NodeKind.store]
    linear_combination z 0 ^ 2 * Real.sin_sq_add_cos_sq (z 1 + x 2)
  rw [this]
  nlinarith

theorem land3d_noise {z l e : Vec3} {A : SE3} (hA : IsRigid A.T) (h : l = A.R *ᵥ z + A.t) : land3dRes (z + e) A l = -e := by
  have e1 : land3dRes (z + e) A l = A.Rᵀ *ᵥ (l - A.t) - (z + e) := by
    change (A.inv.R *ᵥ l + A.inv.t) - _ = _
    rw [SE3.R, SE3.t, inv_T, tl3_homog, tr3_homog, neg_mulVec, ← sub_eq_add_neg, ← mulVec_sub]
  rw [e1, h, add_sub_cancel_right, mulVec_mulVec, mul_eq_one_comm.mp (rigid_R hA).1, one_mulVec]
  abel

theorem prior3d_noise {A B : SE3} {e : ℕ → ℝ} (hA : IsRigid A.T) (h : B.T = expTwist (twistOf e) * A.T)
    (hlen : (![e 0, e 1, e 2] : Fin 3 → ℝ) = 0 ∨ (5e-3 < len ![e 0, e 1, e 2] ∧ len ![e 0, e 1, e 2] < Real.pi / 2)) :
    prior3dRes B A = -twistOf e := by
  have hpi := Real.pi_gt_three
  set w : Vec3 := ![e 0, e 1, e 2] with hw
  set v : Vec3 := ![e 3, e 4, e 5] with hv
  have e0 : twistOf e = vec6 w v := by
    funext i
    rcases i with i | i <;> fin_cases i <;> rfl
  have hneg : -twistOf e = vec6 (-w) (-v) := by
    rw [e0]; funext i; rcases i with i | i <;> rfl
  have hlen' : ∀ u : Vec3, len (-u) = len u := by intro u; simp [len]
  have hE : expTwist (twistOf e) = (SE3.ofVec (vec6 w v)).T := by
    rw [C08_exp_exact, expTwist, e0]
    · rfl
    · rcases hlen with h | h
      · exact .inr h
      · exact .inl (by linarith [h.1])
  have hEn : (SE3.ofVec (vec6 (-w) (-v))).T * (SE3.ofVec (vec6 w v)).T = 1 := by
    rw [C08_exp_exact, C08_exp_exact, twist_eq_hat6, twist_eq_hat6]
    · have : hat6 (vec6 (-w) (-v)) = -hat6 (vec6 w v) := by
        have e : vec6 (-w) (-v) = -vec6 w v := by funext i; rcases i with i | i <;> rfl
        rw [e, hat6_eq_sum, hat6_eq_sum, ← Finset.sum_neg_distrib]
        exact Finset.sum_congr rfl fun i _ => by rw [Pi.neg_apply, neg_smul]
      rw [this, exp_neg]
      exact nonsing_inv_mul _ ((Matrix.isUnit_iff_isUnit_det _).mp (Matrix.isUnit_exp _))
    · rcases hlen with h | h
      · exact .inr h
      · exact .inl (by linarith [h.1])
    · rcases hlen with h | h
      · exact .inr (by rw [h, neg_zero])
      · exact .inl (by rw [hlen']; linarith [h.1])
  have hB : IsRigid B.T := by
    rw [h, hE]; 
    refine mul_isRigid (a := SE3.ofVec (vec6 w v)) (C09_group_exact (.ofVec _ ?_)) hA
    rw [head3_vec6]
    rcases hlen with h | h
    · exact .inr h
    · exact .inl (by linarith [h.1])
  have key : A.mul B.inv = SE3.ofVec (vec6 (-w) (-v)) := by
    apply SE3.ext
    have h1 : (SE3.ofVec (vec6 (-w) (-v))).T * B.T = A.T := by rw [h, hE, ← Matrix.mul_assoc, hEn, Matrix.one_mul]
    change A.T * B.inv.T = _
    rw [← h1, Matrix.mul_assoc, mul_inv_cancel' hB, Matrix.mul_one]
  change (A.mul B.inv).lnVee = _
  rw [key, hneg]
  refine C13_ln_exp_partial ?_ ?_
  · rcases hlen with h | h
    · exact .inl (by rw [h, neg_zero])
    · refine .inr ⟨by rw [hlen']; exact h.1, ?_⟩
      rw [hlen']; linarith [h.2]
  · rintro ⟨h1, -, -⟩
    rw [hlen'] at h1
    rcases hlen with h | h
    · rw [h] at h1; simp [len] at h1; linarith
    · linarith [h.2]

/-- A noisy measurement has the Jacobian of the exact one, and at the true states the residual is minus the error. -/
theorem observed_res {nh : NRef → NodeCell} {e : ℕ → ℝ} {v v' : FactorVirt} {nbrs : List NRef}
    (h : Observed (fun n => (nh n).val) e v v' nbrs) :
    v.robust = .quadratic ∧ ∃ ρ : List NodeVal → Fin v.dim → ℝ, v' = { v with res := ρ } ∧
      ρ (nbrs.map fun n => (nh n).val) = fun l : Fin v.dim => -e l := by
  have v3 : ∀ l : Fin 3, (-![e 0, e 1, e 2] : Vec3) l = -e l := by intro l; fin_cases l <;> rfl
  have v2 : ∀ l : Fin 2, (-![e 0, e 1] : Vec2) l = -e l := by intro l; fin_cases l <;> rfl
  cases h with
  | @prior2d z W n x hn h he =>
    refine ⟨rfl, (FactorVirt.prior2d (z + ![e 0, e 1, e 2]) W .quadratic).res, rfl, ?_⟩
    simp only [List.map_cons, List.map_nil, hn]
    have e0 : prior2dRes z x = 0 := by
      rw [← Matrix.one_mul (planar z), show (1 : Matrix (Fin 3) (Fin 3) ℝ) = planar 0 by
        ext i j; fin_cases i <;> fin_cases j <;> simp [planar]] at h
      obtain ⟨h0, h1, h2⟩ := planarMoved_zero.mp h
      rw [prior2dRes, wrap2_eq_zero]
      refine ⟨sub_eq_zero.mpr h0, sub_eq_zero.mpr h1, ?_⟩
      obtain ⟨k, hk⟩ := h2
      exact ⟨k, by rw [Pi.sub_apply, hk]; ring⟩
    have := wrap2_noise (e := ![e 0, e 1, e 2]) e0 he
    rw [sub_sub] at this
    exact this.trans (funext v3)
  | @rel2d z W n m x y hn hm h he =>
    refine ⟨rfl, (FactorVirt.rel2d (z + ![e 0, e 1, e 2]) W .quadratic).res, rfl, ?_⟩
    simp only [List.map_cons, List.map_nil, hn, hm]
    have e0 := (rel2dRes_eq_zero z x y).mpr h
    have := wrap2_noise (e := ![e 0, e 1, e 2]) e0 he
    rw [sub_sub] at this
    exact this.trans (funext v3)
  | @land2d z W n m x y hn hm hfar h he =>
    refine ⟨rfl, (FactorVirt.land2d (z + ![e 0, e 1]) W false .quadratic).res, rfl, ?_⟩
    simp only [List.map_cons, List.map_nil, hn, hm]
    obtain ⟨h1, h2⟩ := land2d_true hfar h
    exact (land2d_noise (e := ![e 0, e 1]) h1 h2 he).trans (funext v2)
  | @land2dRev z W n m x y hn hm hfar h he =>
    refine ⟨rfl, (FactorVirt.land2d (z + ![e 0, e 1]) W true .quadratic).res, rfl, ?_⟩
    simp only [List.map_cons, List.map_nil, hn, hm]
    obtain ⟨h1, h2⟩ := land2d_true hfar h
    exact (land2d_noise (e := ![e 0, e 1]) h1 h2 he).trans (funext v2)
  | @land3d z l A W n m hn hm hA h =>
    refine ⟨rfl, (FactorVirt.land3d (z + ![e 0, e 1, e 2]) W false .quadratic).res, rfl, ?_⟩
    simp only [List.map_cons, List.map_nil, hn, hm]
    exact (land3d_noise (e := ![e 0, e 1, e 2]) hA h).trans (funext v3)
  | @land3dRev z l A W n m hn hm hA h =>
    refine ⟨rfl, (FactorVirt.land3d (z + ![e 0, e 1, e 2]) W true .quadratic).res, rfl, ?_⟩
    simp only [List.map_cons, List.map_nil, hn, hm]
    exact (land3d_noise (e := ![e 0, e 1, e 2]) hA h).trans (funext v3)
  | @p2plane px z ny A W n hn h hy =>
    refine ⟨rfl, (FactorVirt.p2plane px (z + e 0 • ny) ny W .quadratic).res, rfl, ?_⟩
    simp only [List.map_cons, List.map_nil, hn]
    funext l
    have e1 : p2planeRes px (z + e 0 • ny) ny A = -e 0 := by
      change ny ⬝ᵥ (A.R *ᵥ px + A.t - (z + e 0 • ny)) = _
      rw [← sub_sub, dotProduct_sub, h, dotProduct_smul, hy]; simp
    refine e1.trans ?_
    fin_cases l; rfl
  | @prior3d A B W n hn hA h hlen =>
    refine ⟨rfl, (FactorVirt.prior3d B W .quadratic).res, rfl, ?_⟩
    simp only [List.map_cons, List.map_nil, hn]
    funext l
    have e1 := congrFun (prior3d_noise hA h hlen) (at6 l)
    refine e1.trans ?_
    fin_cases l <;> rfl

/-! ### Two graphs that differ by the errors of the measurements -/

/-- At the states of the first graph the residuals of the second are minus the errors. -/
structure World.Noised (e : FRef → ℕ → ℝ) (w w' : World) : Prop where
  /-- unknowns -/
  active : w'.g.active = w.g.active
  /-- measurements -/
  factors : w'.g.factors = w.g.factors
  /-- states -/
  val : ∀ n, (w'.nh n).val = (w.nh n).val
  /-- connections -/
  nbrs : ∀ f ∈ w.g.factors, (w'.fh f).nbrs = (w.fh f).nbrs
  /-- no robust weights -/
  plain : ∀ f ∈ w.g.factors, (w.fh f).virt.robust = .quadratic
  /-- residuals -/
  virt : ∀ f ∈ w.g.factors, ∃ ρ : List NodeVal → Fin (w.fh f).virt.dim → ℝ, (w'.fh f).virt = { (w.fh f).virt with res := ρ } ∧
    ρ ((w.fh f).nbrs.map fun n => (w.nh n).val) = fun l : Fin (w.fh f).virt.dim => -e f l

theorem run_noised {e : FRef → ℕ → ℝ} {ops : List GraphOp} {w₀ w₁ : World} (h : Remeasured e (addedFactors ops) w₀ w₁)
    (hno : NoSetMode ops) : World.Noised e (World.run ops w₀) (World.run ops w₁) := by
  have f0 : (World.run ops w₀).g.factors = addedFactors ops := by rw [run_factors, h.empty.1]; rfl
  have f1 : (World.run ops w₁).g.factors = addedFactors ops := by rw [run_factors, h.empty.2]; rfl
  have hv : (fun n => ((World.run ops w₀).nh n).val) = fun n => (w₀.nh n).val := funext fun n => (run_nh_static ops w₀ n).1
  constructor
  · rw [run_active ops hno, run_active ops hno, h.empty.1, h.empty.2, h.nodes]
  · rw [f0, f1]
  · intro n
    rw [(run_nh_static ops w₀ n).1, (run_nh_static ops w₁ n).1, h.nodes]
  · intro f hf
    rw [f0] at hf
    rw [(run_fh_static ops w₀ f).2, (run_fh_static ops w₁ f).2, h.nbrs f hf]
  · intro f hf
    rw [f0] at hf
    rw [(run_fh_static ops w₀ f).1]
    exact (observed_res (h.observed f hf)).1
  · intro f hf
    rw [f0] at hf
    rw [(run_fh_static ops w₀ f).1, (run_fh_static ops w₀ f).2, (run_fh_static ops w₁ f).1, hv]
    exact (observed_res (h.observed f hf)).2

namespace World.Noised

variable {e : FRef → ℕ → ℝ} {w w' : World} (h : Noised e w w')
include h

theorem dim (n : NRef) : (w'.nh n).dim = (w.nh n).dim := congrArg (fun v : NodeVal => v.1.dim) (h.val n)

theorem mem (n : NRef) : n ∈ w'.g.active ↔ n ∈ w.g.active := by rw [h.active]

/-- The unknowns correspond to each other. -/
def cols : Cols w ≃ Cols w' where
  toFun c := ⟨⟨c.1.1, (h.mem _).mpr c.1.2⟩, ⟨c.2, by rw [h.dim]; exact c.2.2⟩⟩
  invFun c := ⟨⟨c.1.1, (h.mem _).mp c.1.2⟩, ⟨c.2, by rw [← h.dim]; exact c.2.2⟩⟩
  left_inv _ := rfl
  right_inv _ := rfl

theorem vals : (fun n => (w'.nh n).val) = fun n => (w.nh n).val := funext h.val

theorem plain' (f : FRef) (hf : f ∈ w.g.factors) : (w'.fh f).virt.robust = .quadratic := by
  obtain ⟨ρ, h1, -⟩ := h.virt f hf
  rw [h1]; exact h.plain f hf

theorem noRansac : NoRansac w := fun f hf => by rw [h.plain f hf]; simp

theorem noRansac' : NoRansac w' := fun f hf => by rw [h.factors] at hf; rw [h.plain' f hf]; simp

theorem infoMatrix (i j : Cols w) :
    Spec.infoMatrix (graphTerms w') (h.cols i) (h.cols j) = Spec.infoMatrix (graphTerms w) i j := by
  rw [infoMatrix_quad h.noRansac', infoMatrix_quad h.noRansac, h.vals]
  unfold World.quadSum
  rw [h.factors]
  refine congrArg List.sum (List.map_congr_left fun f hf => ?_)
  obtain ⟨ρ, h1, -⟩ := h.virt f hf
  rw [h.nbrs f hf, h1, h.plain f hf]
  rfl

theorem infoVector (hnd : w.g.factors.Nodup) (i : Cols w) :
    Spec.infoVector (graphTerms w') (h.cols i) = -((w.allJᵀ * w.allW) *ᵥ w.allE e) i := by
  rw [infoVector_quad h.noRansac', infoVector_all hnd, h.vals]
  unfold World.quadSum
  rw [h.factors]
  have hneg : ∀ (l : List FRef) (g : FRef → ℝ), -(l.map g).sum = (l.map fun f => -g f).sum := by
    intro l g
    induction l with
    | nil => simp
    | cons a l ih => simp only [List.map_cons, List.sum_cons, neg_add, ih]
  rw [hneg]
  refine congrArg List.sum (List.map_congr_left fun f hf => ?_)
  obtain ⟨ρ, h1, h2⟩ := h.virt f hf
  have key : ∀ v v' : FactorVirt, (∃ ρ : List NodeVal → Fin v.dim → ℝ, v' = { v with res := ρ } ∧
      ρ ((w.fh f).nbrs.map fun n => (w.nh n).val) = fun l : Fin v.dim => -e f l) → v.robust = .quadratic → ∀ J : (v : FactorVirt) → List NRef → Fin v.dim → ℝ,
      (∀ (v : FactorVirt) ρ, J { v with res := ρ } (w.fh f).nbrs = J v (w.fh f).nbrs) → 
      robustWeight v'.robust 0 (Real.sqrt (factorChi2 v'.W (v'.res ((w.fh f).nbrs.map fun n => (w.nh n).val)))) *
        (J v'.core (w.fh f).nbrs ⬝ᵥ (v'.W *ᵥ v'.core.res ((w.fh f).nbrs.map fun n => (w.nh n).val))) =
      -∑ l, J v.core (w.fh f).nbrs l * (v.W *ᵥ fun l : Fin v.dim => e f l) l := by
    rintro v _ ⟨ρ, rfl, hρ⟩ hq J hJ
    have hJ' : (J (FactorVirt.core { v with res := ρ }) (w.fh f).nbrs : Fin v.dim → ℝ) = J v.core (w.fh f).nbrs := hJ v.core ρ
    refine Eq.trans (congrArg (fun x : Fin v.dim → ℝ => robustWeight v.robust 0
      (Real.sqrt (factorChi2 v.W (ρ ((w.fh f).nbrs.map fun n => (w.nh n).val)))) *
        (x ⬝ᵥ (v.W *ᵥ ρ ((w.fh f).nbrs.map fun n => (w.nh n).val)))) hJ') ?_
    rw [hρ, hq]
    have key2 : ∀ x y : Fin v.dim → ℝ, 1 * (x ⬝ᵥ (v.W *ᵥ fun l => -y l)) = -∑ l, x l * (v.W *ᵥ y) l := by
      intro x y
      rw [show (fun l => -y l) = -y from rfl, mulVec_neg, dotProduct_neg, one_mul]; rfl
    exact key2 (J v.core (w.fh f).nbrs) fun l => e f l
  rw [h.nbrs f hf]
  exact key _ _ ⟨ρ, h1, h2⟩ (h.plain f hf) (jacRow (fun n => (w.nh n).val) i.1 i.2) fun _ _ => rfl

theorem infoMatrix_mulVec (x : Cols w' → ℝ) (i : Cols w) :
    (Spec.infoMatrix (graphTerms w') *ᵥ x) (h.cols i) = (Spec.infoMatrix (graphTerms w) *ᵥ (x ∘ h.cols)) i := by
  rw [mulVec, mulVec, dotProduct, dotProduct, ← h.cols.sum_comp]
  refine Finset.sum_congr rfl fun j _ => ?_
  rw [h.infoMatrix]
  rfl

theorem spread (x : Cols w' → ℝ) : w'.spread x = w.spread (x ∘ h.cols) := by
  funext n k
  unfold World.spread
  by_cases hm : n ∈ w.g.active ∧ k < (w.nh n).dim
  · rw [dif_pos hm, dif_pos ⟨(h.mem n).mpr hm.1, by rw [h.dim]; exact hm.2⟩]
    rfl
  · rw [dif_neg hm, dif_neg]
    rintro ⟨h1, h2⟩
    rw [h.dim] at h2
    exact hm ⟨(h.mem n).mp h1, h2⟩

theorem moved_val (δ : NRef → ℕ → ℝ) (n : NRef) : ((w'.moved δ).nh n).val = ((w.moved δ).nh n).val := by
  change (if n ∈ w'.g.active then (w'.nh n).update (δ n) else w'.nh n).val =
    (if n ∈ w.g.active then (w.nh n).update (δ n) else w.nh n).val
  by_cases hn : n ∈ w.g.active
  · rw [if_pos hn, if_pos ((h.mem n).mpr hn)]
    have key : ∀ c : NodeCell, (c.update (δ n)).val = ⟨c.val.1, c.val.1.upd c.val.2 (c.val.1.ofFlat (δ n))⟩ := fun _ => rfl
    rw [key, key, h.val]
  · rw [if_neg hn, if_neg fun h' => hn ((h.mem n).mp h'), h.val]

/-- The matrix of the second graph is that of the first. -/
theorem infoAt {N : ℕ} {L : Matrix (Fin N) (Fin N) ℝ} (hL : InfoAt w' L) : InfoAt w L := by
  obtain ⟨b, h1, h2⟩ := hL
  refine ⟨h.cols.trans b, fun c => ?_, ?_⟩
  · have hd : (fun n => (w.nh n).dim) = fun n => (w'.nh n).dim := funext fun n => (h.dim n).symm
    rw [hd]
    refine (h1 _).trans ?_
    exact congrArg (fun l => offset (fun n => (w'.nh n).dim) l c.1.1 + (c.2 : ℕ)) h.active
  · ext c d
    have := congrFun (congrFun h2 (h.cols c)) (h.cols d)
    exact this.trans (h.infoMatrix c d)

/-- The linearised cost, in the measurements of the whole graph. -/
theorem linearCost (hnd : w.g.factors.Nodup) (δ : Cols w → ℝ) :
    Spec.linearCost (graphTerms w') (δ ∘ h.cols.symm) =
      1 / 2 * ((w.allJ *ᵥ δ - w.allE e) ⬝ᵥ (w.allW *ᵥ (w.allJ *ᵥ δ - w.allE e))) := by
  have e1 : (w.allJ *ᵥ δ - w.allE e) ⬝ᵥ (w.allW *ᵥ (w.allJ *ᵥ δ - w.allE e)) =
      (w.g.factors.map fun f => ∑ l, (((factorTerm w f).J *ᵥ δ) l - e f l) *
        ((w.fh f).virt.W *ᵥ fun l => ((factorTerm w f).J *ᵥ δ) l - e f l) l).sum := by
    rw [dotProduct, Fintype.sum_sigma, ← sum_factors hnd]
    refine Finset.sum_congr rfl fun f _ => Finset.sum_congr rfl fun l _ => ?_
    rw [allW_mulVec]
    rfl
  have hmul : ∀ (c : ℝ) (l : List FRef) (g : FRef → ℝ), c * (l.map g).sum = (l.map fun f => c * g f).sum := by
    intro c l g
    rw [List.sum_map_mul_left]
  rw [e1, hmul, Spec.linearCost, graphTerms, List.map_map, h.factors]
  refine congrArg List.sum (List.map_congr_left fun f hf => ?_)
  obtain ⟨ρ, h1, h2⟩ := h.virt f hf
  set V := (w.fh f).nbrs.map fun n => (w.nh n).val with hV
  have hV' : (w'.fh f).vals w'.nh = V := by
    rw [FactorCell.vals, hV, h.nbrs f hf, h.vals]
  have hJ : ∀ l, ((factorTerm w' f).J *ᵥ (δ ∘ h.cols.symm)) l =
      ∑ c : Cols w, jacRow (fun n => (w.nh n).val) c.1 c.2 (w'.fh f).virt (w.fh f).nbrs l * δ c := by
    intro l
    rw [mulVec, dotProduct, ← h.cols.sum_comp]
    refine Finset.sum_congr rfl fun c _ => ?_
    rw [Function.comp_apply, Equiv.symm_apply_apply]
    refine congrArg (· * δ c) ?_
    rw [← h.nbrs f hf, ← h.vals]
    rfl
  have key : ∀ v v' : FactorVirt, (∃ ρ : List NodeVal → Fin v.dim → ℝ, v' = { v with res := ρ } ∧ ρ V = fun l : Fin v.dim => -e f l) →
      ∀ A : (v : FactorVirt) → Fin v.dim → ℝ, (∀ (v : FactorVirt) ρ, A { v with res := ρ } = A v) →
      (v'.res V + A v') ⬝ᵥ (((1 : ℝ) • v'.W) *ᵥ (v'.res V + A v')) / 2 = 1 / 2 * ∑ l, (A v l - e f l) * (v.W *ᵥ fun l => A v l - e f l) l := by
    rintro v _ ⟨ρ, rfl, hρ⟩ A hA
    have e2 : (ρ V + (A { v with res := ρ } : Fin v.dim → ℝ)) = fun l => A v l - e f l := by
      funext l
      rw [hρ, Pi.add_apply, hA]; ring
    refine Eq.trans (congrArg (fun x : Fin v.dim → ℝ => x ⬝ᵥ (((1 : ℝ) • v.W) *ᵥ x) / 2) e2) ?_
    rw [one_smul, dotProduct]; ring
  have := key _ _ ⟨ρ, h1, h2⟩ (fun v l => ∑ c : Cols w, jacRow (fun n => (w.nh n).val) c.1 c.2 v (w.fh f).nbrs l * δ c) fun _ _ => rfl
  refine Eq.trans ?_ this
  rw [Function.comp_apply]
  have e3 : (factorTerm w' f).r + (factorTerm w' f).J *ᵥ (δ ∘ h.cols.symm) = (w'.fh f).virt.res V +
      fun l => ∑ c : Cols w, jacRow (fun n => (w.nh n).val) c.1 c.2 (w'.fh f).virt (w.fh f).nbrs l * δ c := by
    funext l
    rw [Pi.add_apply, hJ l, ← hV']
    rfl
  rw [e3]
  change _ ⬝ᵥ ((factorWeight w' f • (w'.fh f).virt.W) *ᵥ _) / 2 = _
  rw [weight_plain (h.plain' f hf)]

/-- The cost at the true states. -/
theorem cost (hnd : w.g.factors.Nodup) : w'.cost = 1 / 2 * (w.allE e ⬝ᵥ (w.allW *ᵥ w.allE e)) := by
  have h1 := h.linearCost hnd 0
  rw [mulVec_zero, zero_sub, mulVec_neg, neg_dotProduct, dotProduct_neg, neg_neg] at h1
  rw [← h1, World.cost, Spec.linearCost, graphTerms, List.map_map]
  refine congrArg List.sum (List.map_congr_left fun f hf => ?_)
  rw [Function.comp_apply, show (0 : Cols w → ℝ) ∘ h.cols.symm = 0 from rfl, mulVec_zero, add_zero]
  change _ = _ ⬝ᵥ ((factorWeight w' f • (w'.fh f).virt.W) *ᵥ _) / 2
  rw [weight_plain (h.plain' f (h.factors ▸ hf)), one_smul, factorChi2]
  ring

end World.Noised

/-- The same objects, other measurements. -/
theorem _root_.Spec.Remeasured.proper {e : FRef → ℕ → ℝ} {ops : List GraphOp} {w w' : World} (h : Remeasured e (addedFactors ops) w w')
    (hp : Proper w ops) : Proper w' ops where
  noSetMode := hp.noSetMode
  nodup := hp.nodup
  noSchur n hn := by rw [h.nodes]; exact hp.noSchur n hn
  registered f hf n hn := by rw [h.nodes]; rw [h.nbrs f hf] at hn; exact hp.registered f hf n hn
  noLoop f hf := by rw [h.nodes, h.nbrs f hf]; exact hp.noLoop f hf
  typed f hf := by
    have := hp.typed f hf
    obtain ⟨-, ρ, h1, -⟩ := observed_res (h.observed f hf)
    rw [FactorCell.wellTyped] at this ⊢
    rw [h.nbrs f hf, h.nodes, this, h1]

theorem _root_.Spec.Remeasured.wellPosed {e : FRef → ℕ → ℝ} {ops : List GraphOp} {w w' : World} (h : Remeasured e (addedFactors ops) w w')
    (hp : Proper w ops) (hpd : ∀ f ∈ addedFactors ops, (w.fh f).virt.W.PosDef) (hwt : ∀ f ∈ addedFactors ops, 0 ≤ (w'.fh f).weight) :
    WellPosed (World.run ops w') := by
  refine run_wellPosed h.empty.2 (h.proper hp) (fun f hf => ?_) hwt
  obtain ⟨-, ρ, h1, -⟩ := observed_res (h.observed f hf)
  rw [h1]
  exact (hpd f hf).posSemidef

/-- The step from the true states is the estimate of linear regression. -/
theorem FGraphSolve.gn_noised {env : Env} (henv : env.Sound) {e' : FRef → ℕ → ℝ} {w : World} {s s1 : FGraphSolve}
    (h : World.Noised e' w s.w) (hw : WellPosed s.w) (hnd : w.g.factors.Nodup)
    (hpd : (Spec.infoMatrix (graphTerms w)).PosDef) {k : ℕ} {l t : ℝ} (h1 : s.solve env .GN k l t = .ok s1) :
    ∀ n, (s1.w.nh n).val =
      ((w.moved (w.spread (((Spec.infoMatrix (graphTerms w))⁻¹ * (w.allJᵀ * w.allW)) *ᵥ w.allE e'))).nh n).val := by
  obtain ⟨dx, hdx, hw1⟩ := gn_ok hw h1
  have hx := normal_solution henv hw hdx
  set x := fun c => dx (colEquiv hw.wired c) with hxd
  have h2 : Spec.infoMatrix (graphTerms w) *ᵥ (x ∘ h.cols) = -((w.allJᵀ * w.allW) *ᵥ w.allE e') := by
    funext i
    have := congrFun hx (h.cols i)
    rw [h.infoMatrix_mulVec, h.infoVector hnd] at this
    exact this
  have h3 : x ∘ h.cols = -(((Spec.infoMatrix (graphTerms w))⁻¹ * (w.allJᵀ * w.allW)) *ᵥ w.allE e') := by
    have := congrArg (fun y => (Spec.infoMatrix (graphTerms w))⁻¹ *ᵥ y) h2
    rw [mulVec_mulVec, nonsing_inv_mul _ hpd.det_pos.ne'.isUnit, one_mulVec, mulVec_neg, mulVec_mulVec] at this
    exact this
  intro n
  rw [hw1]
  have e : ∀ (w : World) δ n, ((w.built.moved δ).nh n).val = ((w.moved δ).nh n).val := fun _ _ _ => rfl
  rw [e, moved_step hw.wired, h.spread, h.moved_val]
  have : World.step hw.wired dx ∘ h.cols = ((Spec.infoMatrix (graphTerms w))⁻¹ * (w.allJᵀ * w.allW)) *ᵥ w.allE e' := by
    change -(x ∘ h.cols) = _
    rw [h3, neg_neg]
  rw [this]

end Mrob
