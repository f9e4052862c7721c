import Verif.Lemmas.Influence
import Mathlib.Analysis.Normed.Module.FiniteDimension
import Mathlib.Analysis.Matrix.Order

/-!
# Graphs with a node held by an anchor, and by a strong prior
-/

open Matrix

namespace Mrob

open World Spec

section linear

variable {ι κ μ : Type} [Fintype ι] [Fintype κ] [Fintype μ] [DecidableEq κ]

/-- The deviation from the solution with exact constraints is at most of the order of the inverse of the weight `t`. -/
theorem penalty_bound {M : Matrix ι ι ℝ} (hM : M.PosSemidef) {J : Matrix κ ι ℝ} {W : Matrix κ κ ℝ} (hW : W.PosDef) (e : μ → ι)
    (hinj : ∀ v : ι → ℝ, J *ᵥ v = 0 → (∀ c, (M *ᵥ v) (e c) = 0) → v = 0) (g : ι → ℝ) :
    ∃ C : ℝ, ∀ (t : ℝ) (d : ι → ℝ), 0 < t → M *ᵥ d + t • (Jᵀ *ᵥ (W *ᵥ (J *ᵥ d))) = g → (∀ c, (M *ᵥ d) (e c) = 0) →
      ∀ i, |d i| ≤ C / t := by
  set Φ : (ι → ℝ) →ₗ[ℝ] (κ → ℝ) × (μ → ℝ) := (Matrix.mulVecLin J).prod ((LinearMap.funLeft ℝ ℝ e).comp (Matrix.mulVecLin M)) with hΦ
  have hker : LinearMap.ker Φ = ⊥ := by
    refine LinearMap.ker_eq_bot'.mpr fun v hv => ?_
    have h1 := congrArg Prod.fst hv
    have h2 := congrArg Prod.snd hv
    exact hinj v h1 fun c => congrFun h2 c
  obtain ⟨K, -, hK⟩ := LinearMap.exists_antilipschitzWith Φ hker
  set σ : ℝ := ∑ l : κ, Real.sqrt ((Pi.single l 1 : κ → ℝ) ⬝ᵥ (W⁻¹ *ᵥ Pi.single l 1)) with hσ
  set G : ℝ := ∑ i, |g i| with hG
  have hσ0 : 0 ≤ σ := Finset.sum_nonneg fun _ _ => Real.sqrt_nonneg _
  have hG0 : 0 ≤ G := Finset.sum_nonneg fun _ _ => abs_nonneg _
  have hK0 : (0 : ℝ) ≤ K := K.2
  refine ⟨(K * σ) * (G * (K * σ)), fun t d ht hd hz i => ?_⟩
  set y := J *ᵥ d with hy
  have hyn : 0 ≤ y ⬝ᵥ (W *ᵥ y) := by
    have := hW.posSemidef.dotProduct_mulVec_nonneg y
    rwa [star_trivial] at this
  set s := Real.sqrt (y ⬝ᵥ (W *ᵥ y)) with hs
  have hs0 : 0 ≤ s := Real.sqrt_nonneg _
  have hss : y ⬝ᵥ (W *ᵥ y) = s * s := (Real.mul_self_sqrt hyn).symm
  have h1 : ‖y‖ ≤ σ * s := by
    refine (pi_norm_le_iff_of_nonneg (mul_nonneg hσ0 hs0)).mpr fun l => ?_
    have := posDef_apply hW (Pi.single l 1) y
    rw [single_dotProduct, one_mul] at this
    refine this.trans (mul_le_mul_of_nonneg_right ?_ hs0)
    exact Finset.single_le_sum (f := fun l => Real.sqrt ((Pi.single l 1 : κ → ℝ) ⬝ᵥ (W⁻¹ *ᵥ Pi.single l 1)))
      (fun _ _ => Real.sqrt_nonneg _) (Finset.mem_univ l)
  have h2 : ‖d‖ ≤ K * ‖y‖ := by
    have := hK.le_mul_dist d 0
    rw [dist_zero_right, map_zero, dist_zero_right] at this
    have e2 : Φ d = (y, 0) := Prod.ext rfl (funext hz)
    rwa [e2, Prod.norm_mk, norm_zero, max_eq_left (norm_nonneg _)] at this
  have h3 : ‖d‖ ≤ K * σ * s := by
    rw [mul_assoc]
    exact h2.trans (mul_le_mul_of_nonneg_left h1 hK0)
  have h4 : d ⬝ᵥ g ≤ G * ‖d‖ := by
    rw [dotProduct, hG, Finset.sum_mul]
    refine Finset.sum_le_sum fun j _ => ?_
    calc d j * g j ≤ |d j * g j| := le_abs_self _
      _ = |g j| * |d j| := by rw [abs_mul, mul_comm]
      _ ≤ |g j| * ‖d‖ := mul_le_mul_of_nonneg_left (norm_le_pi_norm d j) (abs_nonneg _)
  have h5 : d ⬝ᵥ (M *ᵥ d) + t * (s * s) = d ⬝ᵥ g := by
    rw [← hd, dotProduct_add, dotProduct_smul, smul_eq_mul, ← hss]
    congr 2
    rw [dotProduct_mulVec d, vecMul_transpose]
  have h6 : 0 ≤ d ⬝ᵥ (M *ᵥ d) := by
    have := hM.dotProduct_mulVec_nonneg d
    rwa [star_trivial] at this
  have h7 : t * s ≤ G * (K * σ) := by
    have h8 : s * (t * s) ≤ s * (G * (K * σ)) := by
      have := mul_le_mul_of_nonneg_left h3 hG0
      nlinarith
    rcases hs0.lt_or_eq with h | h
    · exact le_of_mul_le_mul_left h8 h
    · rw [← h, mul_zero]; positivity
  rw [le_div_iff₀ ht]
  calc |d i| * t ≤ ‖d‖ * t := mul_le_mul_of_nonneg_right (norm_le_pi_norm d i) ht.le
    _ ≤ K * σ * s * t := mul_le_mul_of_nonneg_right h3 ht.le
    _ = K * σ * (t * s) := by ring
    _ ≤ K * σ * (G * (K * σ)) := mul_le_mul_of_nonneg_left h7 (mul_nonneg hK0 hσ0)

end linear

namespace World

/-- The node `m` is an anchor. -/
def hold (w : World) (m : NRef) : World := { w with nh := Function.update w.nh m { w.nh m with mode := .anchor } }

variable {w v : World}

/-- `v` is `w` with some of the nodes held. -/
structure Held (w v : World) : Prop where
  /-- unknowns -/
  mem : ∀ n ∈ v.g.active, n ∈ w.g.active
  /-- values -/
  val : ∀ n, (v.nh n).val = (w.nh n).val
  /-- information -/
  quad : ∀ V x y, v.quadSum V x y = w.quadSum V x y

namespace Held

variable (h : Held w v)
include h

theorem dim (n : NRef) : (v.nh n).dim = (w.nh n).dim := congrArg (fun v : NodeVal => v.1.dim) (h.val n)

theorem vals : (fun n => (v.nh n).val) = fun n => (w.nh n).val := funext h.val

/-- The unknowns of the graph with held nodes among all unknowns. -/
def emb (c : Cols v) : Cols w := ⟨⟨c.1.1, h.mem _ c.1.2⟩, ⟨c.2, by rw [← h.dim]; exact c.2.2⟩⟩

omit h in
/-- A step that leaves the held nodes where they are. -/
noncomputable def ext (w v : World) (x : Cols v → ℝ) : Cols w → ℝ := fun i => v.spread x i.1 i.2

theorem spread_ext (x : Cols v → ℝ) : w.spread (ext w v x) = v.spread x := by
  funext n k
  by_cases hm : n ∈ w.g.active ∧ k < (w.nh n).dim
  · rw [World.spread, dif_pos hm]
    rfl
  · rw [World.spread, dif_neg hm, World.spread, dif_neg]
    rintro ⟨h1, h2⟩
    rw [h.dim] at h2
    exact hm ⟨h.mem n h1, h2⟩

theorem row (hr : NoRansac w) (hr' : NoRansac v) (x : Cols v → ℝ) (c : Cols v) :
    (infoMatrix (graphTerms v) *ᵥ x) c = (infoMatrix (graphTerms w) *ᵥ ext w v x) (h.emb c) := by
  rw [infoMatrix_mulVec_quad hr, infoMatrix_mulVec_quad hr', h.vals, h.quad, h.spread_ext]
  rfl

theorem rhs (hr : NoRansac w) (hr' : NoRansac v) (c : Cols v) :
    infoVector (graphTerms v) c = infoVector (graphTerms w) (h.emb c) := by
  rw [infoVector_quad hr, infoVector_quad hr', h.vals, h.quad]
  rfl

end Held

/-! ### Histories -/

variable {w₀ : World} {m : NRef}

theorem hold_val (n : NRef) : ((w₀.hold m).nh n).val = (w₀.nh n).val := by
  by_cases hn : n = m
  · subst hn
    change (Function.update w₀.nh n _ n).val = _
    rw [Function.update_self]
    rfl
  · exact congrArg NodeCell.val (Function.update_of_ne hn ..)

theorem hold_mode (n : NRef) : ((w₀.hold m).nh n).mode = if n = m then .anchor else (w₀.nh n).mode := by
  by_cases hn : n = m
  · subst hn
    change (Function.update w₀.nh n _ n).mode = _
    rw [Function.update_self, if_pos rfl]
  · rw [if_neg hn]
    exact congrArg NodeCell.mode (Function.update_of_ne hn ..)

theorem hold_kind (n : NRef) : ((w₀.hold m).nh n).kind = (w₀.nh n).kind := congrArg Sigma.fst (hold_val n)

theorem hold_proper {ops : List GraphOp} (hp : Proper w₀ ops) : Proper (w₀.hold m) ops := by
  refine ⟨hp.noSetMode, hp.nodup, fun n hn => ?_, fun f hf n hn => ?_, fun f hf => ?_, fun f hf => ?_⟩
  · rw [hold_mode]
    split
    · exact fun h => nomatch h
    · exact hp.noSchur n hn
  · rcases hp.registered f hf n hn with h | h
    · exact .inl h
    · refine .inr ?_
      rw [hold_mode]
      split
      · rfl
      · exact h
  · refine List.Nodup.sublist (List.monotone_filter_right _ fun n hn => ?_) (hp.noLoop f hf)
    rw [decide_eq_true_eq, hold_mode] at hn
    rw [decide_eq_true_eq]
    split at hn
    · exact absurd rfl hn
    · exact hn
  · refine Eq.trans ?_ (hp.typed f hf)
    exact List.map_congr_left fun n _ => hold_kind n

theorem held_run (h₀ : w₀.g = emptyGraph) {ops : List GraphOp} (hp : Proper w₀ ops) :
    Held (World.run ops w₀) (World.run ops (w₀.hold m)) ∧
      (∀ n ∈ (World.run ops w₀).g.active, n = m ∨ n ∈ (World.run ops (w₀.hold m)).g.active) ∧
      m ∉ (World.run ops (w₀.hold m)).g.active := by
  have h₀' : (w₀.hold m).g = emptyGraph := h₀
  refine ⟨⟨fun n hn => ?_, fun n => ?_, fun V x y => ?_⟩, fun n hn => ?_, fun hn => ?_⟩
  · rw [mem_run_active h₀' hp.noSetMode, hold_mode] at hn
    rw [mem_run_active h₀ hp.noSetMode]
    split at hn
    · exact absurd hn.2 fun h => nomatch h
    · exact hn
  · rw [(run_nh_static ops w₀ n).1, (run_nh_static ops _ n).1, hold_val]
  · rw [run_quad _ h₀, run_quad _ h₀']
    rfl
  · by_cases hnm : n = m
    · exact .inl hnm
    · refine .inr ?_
      rw [mem_run_active h₀ hp.noSetMode] at hn
      rw [mem_run_active h₀' hp.noSetMode, hold_mode, if_neg hnm]
      exact hn
  · rw [mem_run_active h₀' hp.noSetMode, hold_mode, if_pos rfl] at hn
    exact absurd hn.2 fun h => nomatch h

variable {f : FRef} {W : Matrix (Fin (w₀.fh f).virt.dim) (Fin (w₀.fh f).virt.dim) ℝ}

theorem reweigh_self' : (w₀.reweigh f W).fh f = (w₀.fh f).reweigh W := Function.update_self ..

theorem reweigh_ne' {g : FRef} (h : g ≠ f) : (w₀.reweigh f W).fh g = w₀.fh g := Function.update_of_ne h ..

theorem reweigh_prop {P : FRef → FactorCell → Prop} {g : FRef} (hP : g = f → P f ((w₀.fh f).reweigh W))
    (h : g ≠ f → P g (w₀.fh g)) : P g ((w₀.reweigh f W).fh g) := by
  by_cases hg : g = f
  · subst hg
    rw [reweigh_self']
    exact hP rfl
  · rw [reweigh_ne' hg]
    exact h hg

theorem reweigh_prop' {P : FRef → FactorCell → Prop} (hP : ∀ c : FactorCell, ∀ W, P f c → P f (c.reweigh W)) {g : FRef}
    (h : P g (w₀.fh g)) : P g ((w₀.reweigh f W).fh g) :=
  reweigh_prop (fun e => hP _ _ (e ▸ h)) fun _ => h

theorem reweigh_proper' {ops : List GraphOp} (hp : Proper w₀ ops) : Proper (w₀.reweigh f W) ops :=
  ⟨hp.noSetMode, hp.nodup, hp.noSchur,
    fun g hg => reweigh_prop' (P := fun _ c => ∀ n ∈ c.nbrs, n ∈ addedNodes ops ∨ (w₀.nh n).mode = .anchor)
      (fun _ _ h => h) (hp.registered g hg),
    fun g hg => reweigh_prop' (P := fun _ c => (c.nbrs.filter fun n => (w₀.nh n).mode ≠ .anchor).Nodup)
      (fun _ _ h => h) (hp.noLoop g hg),
    fun g hg => reweigh_prop' (P := fun _ c => c.wellTyped w₀.nh) (fun _ _ h => h) (hp.typed g hg)⟩

theorem grown_reweigh (h₀ : w₀.g = emptyGraph) {ops ops' : List GraphOp} (hp : Proper w₀ ops)
    (hp' : Proper w₀ ops') (hN : (addedNodes ops').Perm (addedNodes ops)) (hF : (addedFactors ops').Perm (f :: addedFactors ops))
    (hf : f ∉ addedFactors ops) :
    Grown (World.run ops w₀) (World.run ops' (w₀.reweigh f W)) [(w₀.fh f).reweigh W] ∧
      ∀ n ∈ (World.run ops' (w₀.reweigh f W)).g.active, n ∈ (World.run ops w₀).g.active := by
  have h₀' : (w₀.reweigh f W).g = emptyGraph := h₀
  have ha : ∀ n, n ∈ (World.run ops' (w₀.reweigh f W)).g.active ↔ n ∈ (World.run ops w₀).g.active := by
    intro n
    rw [mem_run_active h₀ hp.noSetMode, mem_run_active h₀' hp'.noSetMode, hN.mem_iff]
    rfl
  refine ⟨⟨fun n hn => (ha n).mpr hn, fun n => ?_, fun f hf n hn h => (ha n).mp h, fun V x y => ?_⟩, fun n hn => (ha n).mp hn⟩
  · rw [(run_nh_static ops w₀ n).1, (run_nh_static ops' _ n).1]
    rfl
  · rw [run_quad _ h₀, run_quad _ h₀', (hF.map _).sum_eq, List.map_cons, List.sum_cons, List.map_singleton, List.sum_singleton,
      reweigh_self', add_comm]
    refine congrArg (· + _) (congrArg List.sum (List.map_congr_left fun g hg => ?_))
    rw [reweigh_ne']
    rintro rfl
    exact hf hg

end World

end Mrob
