import Verif.Lemmas.Growth

/-!
# How far one measurement can move the others' solution
-/

open Matrix

namespace Mrob

open World Spec

section linear

variable {ι κ : Type} [Fintype ι] [Fintype κ] [DecidableEq ι]

theorem psd_form_comm {W : Matrix κ κ ℝ} (hW : W.PosSemidef) (x y : κ → ℝ) : x ⬝ᵥ (W *ᵥ y) = y ⬝ᵥ (W *ᵥ x) := by
  have hs : Wᵀ = W := isSymm_of_psd hW
  rw [dotProduct_mulVec, ← mulVec_transpose, hs, dotProduct_comm]

/-- Cauchy-Schwarz for a positive semidefinite form. -/
theorem psd_cauchy {W : Matrix κ κ ℝ} (hW : W.PosSemidef) (x y : κ → ℝ) :
    x ⬝ᵥ (W *ᵥ y) ≤ Real.sqrt (x ⬝ᵥ (W *ᵥ x)) * Real.sqrt (y ⬝ᵥ (W *ᵥ y)) := by
  have hn : ∀ z : κ → ℝ, 0 ≤ z ⬝ᵥ (W *ᵥ z) := fun z => by
    have := hW.dotProduct_mulVec_nonneg z
    rwa [star_trivial] at this
  rw [← Real.sqrt_mul (hn x)]
  refine Real.le_sqrt_of_sq_le ?_
  have hq : ∀ t : ℝ, 0 ≤ (x ⬝ᵥ (W *ᵥ x)) * (t * t) + (2 * (x ⬝ᵥ (W *ᵥ y))) * t + y ⬝ᵥ (W *ᵥ y) := by
    intro t
    have := hn (t • x + y)
    rw [mulVec_add, mulVec_smul, add_dotProduct, dotProduct_add, dotProduct_add, smul_dotProduct, smul_dotProduct,
      dotProduct_smul, dotProduct_smul, psd_form_comm hW y x, smul_eq_mul, smul_eq_mul, smul_eq_mul] at this
    linarith
  have := discrim_le_zero hq
  rw [discrim] at this
  nlinarith

variable {L : Matrix ι ι ℝ}

/-- A linear function against a positive definite form. -/
theorem posDef_apply (hL : L.PosDef) (a z : ι → ℝ) :
    |a ⬝ᵥ z| ≤ Real.sqrt (a ⬝ᵥ (L⁻¹ *ᵥ a)) * Real.sqrt (z ⬝ᵥ (L *ᵥ z)) := by
  have hu : IsUnit L.det := isUnit_iff_ne_zero.mpr hL.det_pos.ne'
  have hs : Lᵀ = L := isSymm_of_psd hL.posSemidef
  have e : L *ᵥ (L⁻¹ *ᵥ a) = a := by rw [mulVec_mulVec, mul_nonsing_inv _ hu, one_mulVec]
  have key : ∀ z : ι → ℝ, a ⬝ᵥ z ≤ Real.sqrt (a ⬝ᵥ (L⁻¹ *ᵥ a)) * Real.sqrt (z ⬝ᵥ (L *ᵥ z)) := by
    intro z
    have := psd_cauchy hL.posSemidef z (L⁻¹ *ᵥ a)
    rw [e, dotProduct_comm z a, dotProduct_comm (L⁻¹ *ᵥ a) a] at this
    rw [mul_comm]
    exact this
  refine abs_le.mpr ⟨?_, key z⟩
  have := key (-z)
  rw [mulVec_neg, dotProduct_neg, neg_dotProduct, dotProduct_neg, neg_neg] at this
  linarith

/-- A form of linear functions against a positive definite form. -/
theorem posDef_bound (hL : L.PosDef) (J : Matrix κ ι ℝ) (W : Matrix κ κ ℝ) :
    ∃ q : ℝ, 0 ≤ q ∧ ∀ z : ι → ℝ, (J *ᵥ z) ⬝ᵥ (W *ᵥ (J *ᵥ z)) ≤ q * (z ⬝ᵥ (L *ᵥ z)) := by
  set σ : κ → ℝ := fun l => Real.sqrt (J l ⬝ᵥ (L⁻¹ *ᵥ J l)) with hσ
  refine ⟨∑ l, ∑ m, σ l * |W l m| * σ m, ?_, fun z => ?_⟩
  · exact Finset.sum_nonneg fun l _ => Finset.sum_nonneg fun m _ =>
      mul_nonneg (mul_nonneg (Real.sqrt_nonneg _) (abs_nonneg _)) (Real.sqrt_nonneg _)
  · set N := Real.sqrt (z ⬝ᵥ (L *ᵥ z)) with hN
    have hz : 0 ≤ z ⬝ᵥ (L *ᵥ z) := by
      have := hL.posSemidef.dotProduct_mulVec_nonneg z
      rwa [star_trivial] at this
    have hNN : z ⬝ᵥ (L *ᵥ z) = N * N := (Real.mul_self_sqrt hz).symm
    have hJ : ∀ l, |(J *ᵥ z) l| ≤ σ l * N := fun l => posDef_apply hL (J l) z
    rw [hNN, Finset.sum_mul, dotProduct]
    refine Finset.sum_le_sum fun l _ => ?_
    have eW : (W *ᵥ (J *ᵥ z)) l = ∑ m, W l m * (J *ᵥ z) m := rfl
    rw [Finset.sum_mul, eW, Finset.mul_sum]
    refine Finset.sum_le_sum fun m _ => ?_
    have h1 := mul_le_mul (hJ l) (hJ m) (abs_nonneg _) (mul_nonneg (Real.sqrt_nonneg _) (Real.sqrt_nonneg _))
    calc (J *ᵥ z) l * (W l m * (J *ᵥ z) m) ≤ |(J *ᵥ z) l * (W l m * (J *ᵥ z) m)| := le_abs_self _
      _ = |W l m| * (|(J *ᵥ z) l| * |(J *ᵥ z) m|) := by rw [abs_mul, abs_mul]; ring
      _ ≤ |W l m| * (σ l * N * (σ m * N)) := mul_le_mul_of_nonneg_left h1 (abs_nonneg _)
      _ = σ l * |W l m| * σ m * (N * N) := by ring

/-- The solutions of the normal equations without and with one further measurement of weight `a`. -/
theorem influence_bound (hL : L.PosDef) {J : Matrix κ ι ℝ} {W : Matrix κ κ ℝ} (hW : W.PosSemidef) {q : ℝ} (hq0 : 0 ≤ q)
    (hq : ∀ z : ι → ℝ, (J *ᵥ z) ⬝ᵥ (W *ᵥ (J *ᵥ z)) ≤ q * (z ⬝ᵥ (L *ᵥ z))) {a : ℝ} (ha : 0 ≤ a) {b x x' : ι → ℝ} {r : κ → ℝ}
    (hx : L *ᵥ x = b) (hx' : L *ᵥ x' + a • (Jᵀ *ᵥ (W *ᵥ (J *ᵥ x'))) = b + a • (Jᵀ *ᵥ (W *ᵥ r))) :
    Real.sqrt ((x' - x) ⬝ᵥ (L *ᵥ (x' - x))) ≤
      Real.sqrt q * (a * Real.sqrt (r ⬝ᵥ (W *ᵥ r)) + a * (Real.sqrt q * Real.sqrt (x ⬝ᵥ (L *ᵥ x)))) := by
  set d := x' - x with hd
  have hn : ∀ z : κ → ℝ, 0 ≤ z ⬝ᵥ (W *ᵥ z) := fun z => by
    have := hW.dotProduct_mulVec_nonneg z
    rwa [star_trivial] at this
  have hLn : ∀ z : ι → ℝ, 0 ≤ z ⬝ᵥ (L *ᵥ z) := fun z => by
    have := hL.posSemidef.dotProduct_mulVec_nonneg z
    rwa [star_trivial] at this
  have ex : x' = d + x := by rw [hd, sub_add_cancel]
  have hJt : ∀ v : κ → ℝ, d ⬝ᵥ (Jᵀ *ᵥ v) = (J *ᵥ d) ⬝ᵥ v := fun v => by rw [dotProduct_mulVec, vecMul_transpose]
  have h1 : d ⬝ᵥ (L *ᵥ d) + a * ((J *ᵥ d) ⬝ᵥ (W *ᵥ (J *ᵥ d))) + a * ((J *ᵥ d) ⬝ᵥ (W *ᵥ (J *ᵥ x))) =
      a * ((J *ᵥ d) ⬝ᵥ (W *ᵥ r)) := by
    have h := congrArg (fun v => d ⬝ᵥ v) hx'
    rw [dotProduct_add, dotProduct_add, dotProduct_smul, dotProduct_smul, hJt, hJt, smul_eq_mul, smul_eq_mul] at h
    rw [ex, mulVec_add, mulVec_add, mulVec_add, dotProduct_add, dotProduct_add, hx] at h
    linarith
  set N := Real.sqrt (d ⬝ᵥ (L *ᵥ d)) with hN
  set X := Real.sqrt (x ⬝ᵥ (L *ᵥ x)) with hX
  set R := Real.sqrt (r ⬝ᵥ (W *ᵥ r)) with hR
  have hNN : d ⬝ᵥ (L *ᵥ d) = N * N := (Real.mul_self_sqrt (hLn d)).symm
  have hs : ∀ z : ι → ℝ, Real.sqrt ((J *ᵥ z) ⬝ᵥ (W *ᵥ (J *ᵥ z))) ≤ Real.sqrt q * Real.sqrt (z ⬝ᵥ (L *ᵥ z)) := fun z => by
    rw [← Real.sqrt_mul hq0]
    exact Real.sqrt_le_sqrt (hq z)
  have hN0 : 0 ≤ N := Real.sqrt_nonneg _
  have hX0 : 0 ≤ X := Real.sqrt_nonneg _
  have hR0 : 0 ≤ R := Real.sqrt_nonneg _
  have hQ0 : 0 ≤ Real.sqrt q := Real.sqrt_nonneg _
  have h2 : (J *ᵥ d) ⬝ᵥ (W *ᵥ r) ≤ Real.sqrt q * N * R :=
    (psd_cauchy hW _ _).trans (mul_le_mul_of_nonneg_right (hs d) hR0)
  have h3 : -((J *ᵥ d) ⬝ᵥ (W *ᵥ (J *ᵥ x))) ≤ Real.sqrt q * N * (Real.sqrt q * X) := by
    have := psd_cauchy hW (J *ᵥ d) (J *ᵥ (-x))
    rw [mulVec_neg, mulVec_neg, dotProduct_neg, neg_dotProduct, dotProduct_neg, neg_neg] at this
    exact this.trans (mul_le_mul (hs d) (hs x) (Real.sqrt_nonneg _) (mul_nonneg hQ0 hN0))
  have h4 : N * N ≤ N * (Real.sqrt q * (a * R + a * (Real.sqrt q * X))) := by
    have e1 := mul_le_mul_of_nonneg_left h2 ha
    have e2 := mul_le_mul_of_nonneg_left h3 ha
    have e3 := mul_nonneg ha (hn (J *ᵥ d))
    rw [← hNN]
    calc d ⬝ᵥ (L *ᵥ d) ≤ a * ((J *ᵥ d) ⬝ᵥ (W *ᵥ r)) + a * (-((J *ᵥ d) ⬝ᵥ (W *ᵥ (J *ᵥ x)))) := by linarith
      _ ≤ a * (Real.sqrt q * N * R) + a * (Real.sqrt q * N * (Real.sqrt q * X)) := add_le_add e1 e2
      _ = _ := by ring
  rcases hN0.lt_or_eq with h | h
  · exact le_of_mul_le_mul_left h4 h
  · rw [← h]
    exact mul_nonneg hQ0 (add_nonneg (mul_nonneg ha hR0) (mul_nonneg ha (mul_nonneg hQ0 hX0)))

end linear

/-- The same factor object that measured something else. -/
def FactorCell.remeasure (c : FactorCell) (ρ : List NodeVal → Fin c.virt.dim → ℝ) : FactorCell :=
  ⟨{ c.virt with res := ρ }, c.nbrs, c.id, c.r, c.J, c.chi2, c.weight⟩

namespace World

variable {w w' : World}

/-- The factor `f` measured something else: its residual is another function of the states, its Jacobian and its information
matrix are the same. -/
def remeasure (w : World) (f : FRef) (ρ : List NodeVal → Fin (w.fh f).virt.dim → ℝ) : World :=
  { w with fh := Function.update w.fh f ((w.fh f).remeasure ρ) }

/-- The Jacobian of a factor with respect to all unknowns. -/
noncomputable def cellJac (w : World) (c : FactorCell) : Matrix (Fin c.virt.dim) (Cols w) ℝ :=
  Matrix.of fun l a => jacRow (fun n => (w.nh n).val) a.1 a.2 c.virt.core c.nbrs l

theorem cellJac_mulVec (c : FactorCell) (x : Cols w → ℝ) :
    cellJac w c *ᵥ x = jacStep (fun n => (w.nh n).val) (w.spread x) c.virt.core c.nbrs := by
  funext l
  exact (sum_blockEntry x _ _ 0).trans (rowApply_eq w x _ _ 0)

/-- The weight of a factor. -/
noncomputable def cellWeight (w : World) (c : FactorCell) : ℝ :=
  robustWeight c.virt.robust 0 (Real.sqrt (factorChi2 c.virt.W (c.virt.res (c.nbrs.map fun n => (w.nh n).val))))

namespace Grown

variable {c : FactorCell} (h : Grown w w' [c])
include h

/-- The normal equations of the larger graph. -/
theorem equation (hact : ∀ n ∈ w'.g.active, n ∈ w.g.active) (hr : NoRansac w) (hr' : NoRansac w') {x' : Cols w' → ℝ}
    (hx' : infoMatrix (graphTerms w') *ᵥ x' = infoVector (graphTerms w')) :
    infoMatrix (graphTerms w) *ᵥ (x' ∘ h.emb) +
        cellWeight w c • ((cellJac w c)ᵀ *ᵥ (c.virt.W *ᵥ (cellJac w c *ᵥ (x' ∘ h.emb)))) =
      infoVector (graphTerms w) +
        cellWeight w c • ((cellJac w c)ᵀ *ᵥ (c.virt.W *ᵥ c.virt.res (c.nbrs.map fun n => (w.nh n).val))) := by
  funext i
  have e := congrFun hx' (h.emb i)
  rw [h.row hr hr', h.rhs hr hr', List.map_singleton, List.map_singleton, List.sum_singleton, List.sum_singleton] at e
  have e1 : jacStep (fun n => (w.nh n).val) (w'.spread x') c.virt.core c.nbrs = cellJac w c *ᵥ (x' ∘ h.emb) := by
    rw [cellJac_mulVec]
    exact jacStep_congr (fun _ _ => rfl) (fun n _ k _ => (h.spread_emb x' (hact n) k).symm) _
  rw [quadTerm, e1] at e
  exact e

theorem form_cell (hact : ∀ n ∈ w'.g.active, n ∈ w.g.active) (hr : NoRansac w) (hr' : NoRansac w') (x' : Cols w' → ℝ) :
    x' ⬝ᵥ (infoMatrix (graphTerms w') *ᵥ x') = (x' ∘ h.emb) ⬝ᵥ (infoMatrix (graphTerms w) *ᵥ (x' ∘ h.emb)) +
      cellWeight w c * ((cellJac w c *ᵥ (x' ∘ h.emb)) ⬝ᵥ (c.virt.W *ᵥ (cellJac w c *ᵥ (x' ∘ h.emb)))) := by
  have e1 : jacStep (fun n => (w.nh n).val) (w'.spread x') c.virt.core c.nbrs = cellJac w c *ᵥ (x' ∘ h.emb) := by
    rw [cellJac_mulVec]
    exact jacStep_congr (fun _ _ => rfl) (fun n _ k _ => (h.spread_emb x' (hact n) k).symm) _
  rw [h.form hr hr', List.map_singleton, List.sum_singleton, quadTerm, e1]
  rfl

theorem emb_zero (hact : ∀ n ∈ w'.g.active, n ∈ w.g.active) {x' : Cols w' → ℝ} (h0 : x' ∘ h.emb = 0) : x' = 0 := by
  funext i
  rw [← spread_apply x' i, ← h.spread_emb x' (hact _), h0, World.spread]
  split <;> rfl

theorem posDef (hact : ∀ n ∈ w'.g.active, n ∈ w.g.active) (hr : NoRansac w) (hr' : NoRansac w') (hpd : (infoMatrix (graphTerms w)).PosDef)
    (hsym : (infoMatrix (graphTerms w')).IsHermitian) (hW : c.virt.W.PosSemidef) : (infoMatrix (graphTerms w')).PosDef := by
  refine Matrix.PosDef.of_dotProduct_mulVec_pos hsym fun {x'} hx' => ?_
  rw [star_trivial, h.form hr hr', List.map_singleton, List.sum_singleton]
  have h2 := quadTerm_nonneg (V := fun n => (w.nh n).val) (x := jacStep (fun n => (w.nh n).val) (w'.spread x')) hW
  have hne : x' ∘ h.emb ≠ 0 := fun h0 => hx' (h.emb_zero hact h0)
  have h1 := hpd.dotProduct_mulVec_pos hne
  rw [star_trivial] at h1
  linarith

theorem moved_val (hact : ∀ n ∈ w'.g.active, n ∈ w.g.active) {n : NRef} {δ δ' : NRef → ℕ → ℝ} (hδ : δ' n = δ n) :
    ((w'.moved δ').nh n).val = ((w.moved δ).nh n).val := by
  change (if n ∈ w'.g.active then (w'.nh n).update (δ' n) else w'.nh n).val =
    (if n ∈ w.g.active then (w.nh n).update (δ n) else w.nh n).val
  rw [hδ]
  by_cases hm : n ∈ w.g.active
  · rw [if_pos hm, if_pos (h.mem n hm)]
    have key : ∀ c : NodeCell, (c.update (δ n)).val = ⟨c.val.1, c.val.1.upd c.val.2 (c.val.1.ofFlat (δ n))⟩ := fun _ => rfl
    rw [key, key, h.val n]
  · rw [if_neg hm, if_neg fun h' => hm (hact n h'), h.val n]

end Grown

end World

/-- The Gauss-Newton step as a solution of the normal equations. -/
theorem FGraphSolve.gn_step {env : Env} (henv : env.Sound) {s s1 : FGraphSolve} (hw : WellPosed s.w) {k : ℕ} {l t : ℝ}
    (h1 : s.solve env .GN k l t = .ok s1) : ∃ x : Cols s.w → ℝ,
      Spec.infoMatrix (graphTerms s.w) *ᵥ x = Spec.infoVector (graphTerms s.w) ∧
      ∀ n, (s1.w.nh n).val = ((s.w.moved (s.w.spread (-x))).nh n).val := by
  obtain ⟨dx, hdx, hw1⟩ := gn_ok hw h1
  refine ⟨_, normal_solution henv hw hdx, fun n => ?_⟩
  have e : ∀ (w : World) δ n, ((w.built.moved δ).nh n).val = ((w.moved δ).nh n).val := fun _ _ _ => rfl
  rw [hw1, e, moved_step hw.wired]
  rfl

/-! ### Histories -/

namespace World

variable {w₀ : World} {f : FRef} {ρ : List NodeVal → Fin (w₀.fh f).virt.dim → ℝ}

theorem remeasure_self : (w₀.remeasure f ρ).fh f = (w₀.fh f).remeasure ρ := Function.update_self ..

theorem remeasure_ne {g : FRef} (h : g ≠ f) : (w₀.remeasure f ρ).fh g = w₀.fh g := Function.update_of_ne h ..

theorem remeasure_prop {P : FRef → FactorCell → Prop} (hP : ∀ c : FactorCell, ∀ ρ, P f c → P f (c.remeasure ρ)) {g : FRef}
    (h : P g (w₀.fh g)) : P g ((w₀.remeasure f ρ).fh g) := by
  by_cases hg : g = f
  · subst hg
    rw [remeasure_self]
    exact hP _ _ h
  · rw [remeasure_ne hg]
    exact h

theorem remeasure_proper {ops : List GraphOp} (hp : Proper w₀ ops) : Proper (w₀.remeasure f ρ) ops :=
  ⟨hp.noSetMode, hp.nodup, hp.noSchur,
    fun g hg => remeasure_prop (P := fun _ c => ∀ n ∈ c.nbrs, n ∈ addedNodes ops ∨ (w₀.nh n).mode = .anchor)
      (fun _ _ h => h) (hp.registered g hg),
    fun g hg => remeasure_prop (P := fun _ c => (c.nbrs.filter fun n => (w₀.nh n).mode ≠ .anchor).Nodup)
      (fun _ _ h => h) (hp.noLoop g hg),
    fun g hg => remeasure_prop (P := fun _ c => c.wellTyped w₀.nh) (fun _ _ h => h) (hp.typed g hg)⟩

theorem grown_remeasure (h₀ : w₀.g = emptyGraph) {ops ops' : List GraphOp} (hp : Proper w₀ ops)
    (hp' : Proper w₀ ops') (hN : (addedNodes ops').Perm (addedNodes ops)) (hF : (addedFactors ops').Perm (f :: addedFactors ops))
    (hf : f ∉ addedFactors ops) :
    Grown (World.run ops w₀) (World.run ops' (w₀.remeasure f ρ)) [(w₀.fh f).remeasure ρ] ∧
      ∀ n ∈ (World.run ops' (w₀.remeasure f ρ)).g.active, n ∈ (World.run ops w₀).g.active := by
  have h₀' : (w₀.remeasure f ρ).g = emptyGraph := h₀
  have ha : ∀ n, n ∈ (World.run ops' (w₀.remeasure f ρ)).g.active ↔ n ∈ (World.run ops w₀).g.active := by
    intro n
    rw [mem_run_active h₀ hp.noSetMode, mem_run_active h₀' hp'.noSetMode, hN.mem_iff]
    rfl
  refine ⟨⟨fun n hn => (ha n).mpr hn, fun n => ?_, fun f hf n hn h => (ha n).mp h, fun V x y => ?_⟩, fun n hn => (ha n).mp hn⟩
  · rw [(run_nh_static ops w₀ n).1, (run_nh_static ops' _ n).1]
    rfl
  · rw [run_quad _ h₀, run_quad _ h₀', (hF.map _).sum_eq, List.map_cons, List.sum_cons, List.map_singleton, List.sum_singleton,
      remeasure_self, add_comm]
    refine congrArg (· + _) (congrArg List.sum (List.map_congr_left fun g hg => ?_))
    rw [remeasure_ne]
    rintro rfl
    exact hf hg

end World

end Mrob
