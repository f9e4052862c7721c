import Verif.Lemmas.SpatialStep
import Verif.Props.FixedPoint

/-!
# Spatial graphs started near the solution
-/

open Matrix Filter Topology

namespace Mrob

open World Spec

/-- Starting near the states that agree with all measurements. -/
theorem displaced_spatial (ops : List GraphOp) (w₀ : World) (h₀ : w₀.g = emptyGraph) (hp : Proper w₀ ops)
    (hpsd : ∀ f ∈ addedFactors ops, (w₀.fh f).virt.W.PosSemidef)
    (hr : ∀ f ∈ addedFactors ops, (w₀.fh f).virt.robust ≠ .ransac)
    (hsafe : ∀ n ∈ addedNodes ops, (w₀.nh n).mode = .standard → SafeState (w₀.nh n).val)
    (hagree : ∀ f ∈ addedFactors ops, AgreesSpatial (fun n => (w₀.nh n).val) (w₀.fh f).virt (w₀.fh f).nbrs) :
    SpatialSolved (World.run ops w₀) ∧
    ∀ ρ, 0 ≤ ρ → ∀ w₀' : World, w₀'.g = emptyGraph → DisplacedSpatial ρ ops w₀ w₀' →
      (∀ f ∈ addedFactors ops, 0 ≤ (w₀'.fh f).weight) →
      ∃ X, (World.run ops w₀).size X ≤ ρ ∧ Good (World.run ops w₀) X ∧ OffSpatial (World.run ops w₀) X (World.run ops w₀') := by
  have hfac : ∀ w : World, w.g = emptyGraph → (World.run ops w).g.factors = addedFactors ops := by
    intro w hw; rw [run_factors, hw]; rfl
  have hact : ∀ w : World, w.g = emptyGraph →
      (World.run ops w).g.active = (addedNodes ops).filter fun n => (w.nh n).mode = .standard := by
    intro w hw; rw [run_active ops hp.noSetMode, hw]; rfl
  have hval : ∀ (w : World) n, ((World.run ops w).nh n).val = (w.nh n).val := fun w n => (run_nh_static ops w n).1
  have hsp : Spatial (World.run ops w₀) := by
    intro n hn
    rw [hact _ h₀, List.mem_filter] at hn
    rw [hval]
    exact hsafe n hn.1 (by simpa using hn.2)
  have hS : SpatialSolved (World.run ops w₀) := by
    refine ⟨hsp, fun f hf => ?_, run_noRansac h₀ hr⟩
    rw [hfac _ h₀] at hf
    rw [(run_fh_static ops w₀ f).1, (run_fh_static ops w₀ f).2, show here (World.run ops w₀) = _ from funext (hval w₀)]
    exact hagree f hf
  refine ⟨hS, fun ρ hρ w₀' h₀' hD hwt => ?_⟩
  have hI : ∀ n, (n ∈ (World.run ops w₀).g.active ∨ ∃ f ∈ (World.run ops w₀).g.factors, n ∈ ((World.run ops w₀).fh f).nbrs) →
      Involved ops w₀ n := by
    rintro n (hn | ⟨f, hf, hn⟩)
    · rw [hact _ h₀] at hn; exact .inl (List.mem_of_mem_filter hn)
    · rw [hfac _ h₀] at hf; rw [(run_fh_static ops w₀ f).2] at hn; exact .inr ⟨f, hf, hn⟩
  have hanchor : ∀ n, Involved ops w₀ n → n ∉ (World.run ops w₀).g.active →
      ((World.run ops w₀').nh n).val = ((World.run ops w₀).nh n).val := by
    intro n hn ha
    rw [hval, hval]
    refine hD.anchors n hn fun hst => ha ?_
    rw [hact _ h₀, List.mem_filter]
    refine ⟨?_, by simpa using hst⟩
    rcases hn with hn | ⟨f, hf, hn⟩
    · exact hn
    · rcases hp.registered f hf n hn with h | h
      · exact h
      · rw [hst] at h; cases h
  have hkind : ∀ v v', NearSpatial ρ v v' → v'.1 = v.1 := by
    rintro ⟨k, x⟩ ⟨k', x'⟩ h
    cases k <;> cases k' <;> first | rfl | exact absurd h id
  have hp' := Restated.proper (R := NearSpatial ρ) hkind (by rintro _ _ rfl; rfl) hD.near hp
  have hact' : (World.run ops w₀').g.active = (World.run ops w₀).g.active := by
    rw [hact _ h₀, hact _ h₀']
    exact List.filter_congr fun n hn => by rw [hD.near.mode n (.inl hn)]
  set X : NRef → NodeVal := fun n => if n ∈ (World.run ops w₀).g.active then ((World.run ops w₀').nh n).val else ((World.run ops w₀).nh n).val
    with hXdef
  have hXa : ∀ n ∈ (World.run ops w₀).g.active, X n = (w₀'.nh n).val := fun n hn => by rw [hXdef]; dsimp only; rw [if_pos hn, hval]
  have hnear : ∀ n ∈ (World.run ops w₀).g.active, NearSpatial ρ ((World.run ops w₀).nh n).val (X n) := fun n hn => by
    rw [hXa n hn, hval]; exact hD.near.val n (hI n (.inl hn))
  have hgood : Good (World.run ops w₀) X := by
    refine ⟨fun n hn => ?_, fun n hn => ?_⟩
    · have h1 := hnear n hn
      have h2 := hD.rigid n (hI n (.inl hn))
      rw [← hXa n hn] at h2
      rcases hsp.cases hn with ⟨A, hv, hA, -⟩ | ⟨l, hv⟩
      · have hk := hkind _ _ h1
        rw [hv] at hk ⊢
        rw [eq_poseOf hk] at h2 ⊢
        exact ⟨h2.lastRow, Or.inl (rigid_R h2)⟩
      · have hk := hkind _ _ h1
        rw [hv] at hk ⊢
        rw [eq_markOf hk]
        trivial
    · rw [hXdef]; dsimp only; rw [if_neg hn]
  have hX : ∀ n, Involved ops w₀ n → X n = ((World.run ops w₀').nh n).val := by
    intro n hn
    by_cases ha : n ∈ (World.run ops w₀).g.active
    · rw [hXa n ha, hval]
    · rw [hgood.fixed n ha, hanchor n hn ha]
  refine ⟨X, ?_, hgood, ⟨⟨hact', ?_, fun f hf => ?_, fun n hn => ?_, fun f hf => ?_, fun n hn => sameSym_moves _, fun f hf => trivial⟩, ?_, ?_⟩⟩
  · refine (pi_norm_le_iff_of_nonneg hρ).mpr fun a => ?_
    have h1 : gap ((World.run ops w₀).nh a).val (X a) ≤ ρ := by
      refine (gap_le_iff (hkind _ _ (hnear a a.2)) ?_ hρ).mpr (hnear a a.2)
      rcases hsp.cases a.2 with ⟨A, hv, -⟩ | ⟨l, hv⟩
      · exact .inl (congrArg Sigma.fst hv)
      · exact .inr (congrArg Sigma.fst hv)
    rw [Real.norm_eq_abs, abs_of_nonneg]
    · exact h1
    · rcases hsp.cases a.2 with ⟨A, hv, -⟩ | ⟨l, hv⟩
      · rw [hv, eq_poseOf (hgood.pose_kind hv)]; exact norm_nonneg _
      · rw [hv, eq_markOf (hgood.mark_kind hv)]; exact norm_nonneg _
  · change _ = (World.run ops w₀).g.factors
    rw [hfac _ h₀, hfac _ h₀']
  · change _ = ((World.run ops w₀).fh f).nbrs
    change f ∈ (World.run ops w₀).g.factors at hf
    rw [hfac _ h₀] at hf
    rw [(run_fh_static ops w₀ f).2, (run_fh_static ops w₀' f).2, hD.near.nbrs f hf]
  · change _ = (((World.run ops w₀).put X).nh n).val
    rw [hgood.put_val, hX n (hI n hn)]
  · change f ∈ (World.run ops w₀).g.factors at hf
    have h2 : ((World.run ops w₀').fh f).virt = ((World.run ops w₀).fh f).virt := by
      rw [(run_fh_static ops w₀ f).1, (run_fh_static ops w₀' f).1]
      exact hD.near.virt f (by rwa [hfac _ h₀] at hf)
    rw [h2]; exact sameSym_factors _
  · refine run_wellPosed h₀' hp' (fun f hf => ?_) hwt
    rw [hD.near.virt f hf]; exact hpsd f hf
  · refine run_noRansac h₀' fun f hf => ?_
    rw [hD.near.virt f hf]; exact hr f hf

theorem halfDiag_regenerate : (SE3.mk (homog halfDiag 0 1)).regenerate = SE3.default := by
  have hang : angle halfDiag = Real.pi := by
    rw [angle, trace_fin_three]; simp [halfDiag]; norm_num
  have hd := C05_diagonal_fails halfDiag_isRotation (Or.inl (by
      funext i; fin_cases i <;> simp [halfDiag, mulVec, dotProduct, Fin.sum_univ_three]))
    (by rw [hang]; have := Real.pi_pos; linarith) (Or.inr hang)
  have hr : IsRigid (SE3.mk (homog halfDiag 0 1)).T := isRigid_homog halfDiag_isRotation 0
  have hln : (SE3.mk (homog halfDiag 0 1)).lnVee = 0 := by
    rw [se3_lnVee hr, R_mk_homog, hd.1, t_mk_homog, mulVec_zero]
    funext i; rcases i with i | i <;> rfl
  rw [C13_regenerate hr, hln]
  ext1
  exact se3_ofVec_zero

namespace Demo

/-- A pose with a prior somewhere else. -/
noncomputable def offWorld₀ (a P : SE3) : World := { atWorld₀ a with nh := fun _ => NodeCell.new .pose3d P .standard }

theorem at_agrees {a : SE3} (ha : IsRigid a.T) : ∀ f ∈ addedFactors p3Ops,
    AgreesSpatial (fun n => ((atWorld₀ a).nh n).val) ((atWorld₀ a).fh f).virt ((atWorld₀ a).fh f).nbrs :=
  fun _ _ => .prior3d rfl ha

theorem off_displaced {a P : SE3} {ρ : ℝ} (ha : IsRigid P.T) (h : ∀ i j, |P.T i j - a.T i j| ≤ ρ) :
    DisplacedSpatial ρ p3Ops (atWorld₀ a) (offWorld₀ a P) := by
  refine ⟨⟨fun _ _ => rfl, fun _ _ => h, fun _ _ => rfl, fun _ _ => rfl⟩, fun _ _ => ha, fun _ _ hm => absurd rfl hm⟩

end Demo

end Mrob
