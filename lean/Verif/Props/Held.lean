import Verif.Lemmas.Held
import Verif.Props.Influence
import Verif.Props.Growth

/-!
# C103: an anchor is the limit of strong priors
-/

open Matrix

namespace Mrob

open World Spec

theorem fixes_alone {V : FactorVirt} {nbrs : List NRef} {m : NRef} (h : Fixes V nbrs [] m) : ∀ n ∈ nbrs, n = m := by
  cases h
  case prior2d => exact fun n hn => List.mem_singleton.mp hn
  case prior3d => exact fun n hn => List.mem_singleton.mp hn

/-- C103: a node `m` held by a prior `f` at its present value with information `τ • W` behaves for large `τ` like an anchored
node: `solve(GN)` returns for every `τ > 0`, and its step differs from the step with `m` an anchor and without the prior by at most
`C / τ` in every component of every node (for the node `m` itself the step with the anchor is zero). -/
theorem C103_gn (w₀ : World) (h₀ : w₀.g = emptyGraph) (ops ops' : List GraphOp) (hp : Proper w₀ ops) (hp' : Proper w₀ ops')
    (m : NRef) (f : FRef) (hN : (addedNodes ops').Perm (addedNodes ops)) (hF : (addedFactors ops').Perm (f :: addedFactors ops))
    (hf : f ∉ addedFactors ops) (hfix : Fixes (w₀.fh f).virt (w₀.fh f).nbrs [] m)
    (hR : ∀ X : SE3, (w₀.nh m).val = ⟨.pose3d, X⟩ → IsRigid X.T)
    (hres : (w₀.fh f).virt.res ((w₀.fh f).nbrs.map fun n => (w₀.nh n).val) = 0) (hW : (w₀.fh f).virt.W.PosDef)
    (hpsd : ∀ g ∈ addedFactors ops, (w₀.fh g).virt.W.PosSemidef) (hwt : ∀ g ∈ f :: addedFactors ops, 0 ≤ (w₀.fh g).weight)
    (hr : ∀ g ∈ f :: addedFactors ops, (w₀.fh g).virt.robust ≠ .ransac)
    (env : Env) (henv : env.Sound) (hcomp : env.Complete) (s : FGraphSolve) (hs : s.w = World.run ops (w₀.hold m))
    (hpd : (infoMatrix (graphTerms s.w)).PosDef) (k : ℕ) (l t : ℝ) :
    ∃ (s1 : FGraphSolve) (x : Cols s.w → ℝ) (C : ℝ), s.solve env .GN k l t = .ok s1 ∧
      (∀ n, (s1.w.nh n).val = ((s.w.moved (s.w.spread (-x))).nh n).val) ∧
      ∀ τ : ℝ, 0 < τ → ∀ s' : FGraphSolve, s'.w = World.run ops' (w₀.reweigh f (τ • (w₀.fh f).virt.W)) →
        ∃ (s1' : FGraphSolve) (x' : Cols s'.w → ℝ), s'.solve env .GN k l t = .ok s1' ∧
          (∀ n, (s1'.w.nh n).val = ((s'.w.moved (s'.w.spread (-x'))).nh n).val) ∧
          ∀ n j, |s'.w.spread x' n j - s.w.spread x n j| ≤ C / τ := by
  classical
  have hff : f ∈ addedFactors ops' := hF.mem_iff.mpr List.mem_cons_self
  have hwt1 : ∀ g ∈ addedFactors ops, 0 ≤ (w₀.fh g).weight := fun g hg => hwt g (List.mem_cons_of_mem _ hg)
  have hr1 : ∀ g ∈ addedFactors ops, (w₀.fh g).virt.robust ≠ .ransac := fun g hg => hr g (List.mem_cons_of_mem _ hg)
  obtain ⟨hh, hor, hmn⟩ := held_run (m := m) h₀ hp
  set w := World.run ops w₀ with hwdef
  have hw : WellPosed w := run_wellPosed h₀ hp hpsd hwt1
  have hnr : NoRansac w := run_noRansac h₀ (ops := ops) hr1
  have hwB := run_wellPosed (w₀ := w₀.hold m) h₀ (hold_proper hp) hpsd hwt1
  have hnrB := run_noRansac (w₀ := w₀.hold m) h₀ (ops := ops) hr1
  rw [← hs] at hh hor hmn hwB hnrB
  obtain ⟨s1, h1⟩ := C36_returns env hcomp s hwB hpd k l t
  obtain ⟨x, hx, hx1⟩ := FGraphSolve.gn_step henv hwB h1
  have hv : (fun n => (w.nh n).val) = fun n => (w₀.nh n).val := funext fun n => by rw [hwdef, (run_nh_static ops w₀ n).1]
  set J := cellJac w (w₀.fh f) with hJ
  set M := infoMatrix (graphTerms w) with hM
  have hMpsd : M.PosSemidef := FGraphSolve.terms_psd hw
  -- the prior sees only the node `m`
  have halone := fixes_alone hfix
  have hJcol : ∀ lrow c, J lrow (hh.emb c) = 0 := by
    intro lrow c
    refine blockEntry_of_notMem _ _ _ _ (fun hn => ?_) 0
    have := halone _ hn
    exact hmn (this ▸ c.1.2)
  have hJt : ∀ u c, (Jᵀ *ᵥ u) (hh.emb c) = 0 := by
    intro u c
    rw [mulVec, dotProduct]
    refine Finset.sum_eq_zero fun lrow _ => ?_
    rw [transpose_apply, hJcol, zero_mul]
  have hJext : ∀ z : Cols s.w → ℝ, J *ᵥ Held.ext w s.w z = 0 := by
    intro z
    have e0 : J *ᵥ (0 : Cols w → ℝ) = 0 := mulVec_zero _
    rw [← e0, hJ, cellJac_mulVec, cellJac_mulVec]
    refine jacStep_congr (fun _ _ => rfl) (fun n hn j _ => ?_) _
    rw [halone n hn, hh.spread_ext, spread_of_notMem _ hmn, World.spread]
    split <;> rfl
  have htyped : (w₀.fh f).wellTyped w.nh := by
    have := hp'.typed f hff
    have e : (fun n => (w.nh n).kind) = fun n => (w₀.nh n).kind := by
      funext n
      exact congrArg Sigma.fst (congrFun hv n)
    rw [FactorCell.wellTyped, e]
    exact this
  have hext : ∀ z : Cols w → ℝ, J *ᵥ z = 0 → z = Held.ext w s.w (z ∘ hh.emb) := by
    intro z hz
    have hm0 : ∀ j, w.spread z m j = 0 := by
      refine fixes_zero hfix htyped (fun n hn X hX => .of_rigid (hR X ?_)) z (fun lrow => ?_) (fun n hn => nomatch hn)
      · rw [← halone n hn, ← hX]
        exact (congrFun hv n).symm
      · rw [rowApply_eq]
        have := congrFun hz lrow
        rw [hJ, cellJac_mulVec] at this
        exact this
    funext i
    rw [Held.ext, World.spread]
    by_cases hi : i.1.1 = m
    · rw [dif_neg fun h => hmn (hi ▸ h.1), ← spread_apply z i]
      have := hm0 i.2
      rw [← hi] at this
      exact this
    · rw [dif_pos ⟨(hor _ i.1.2).resolve_left hi, by rw [hh.dim]; exact i.2.2⟩]
      rfl
  have hinj : ∀ z : Cols w → ℝ, J *ᵥ z = 0 → (∀ c, (M *ᵥ z) (hh.emb c) = 0) → z = 0 := by
    intro z hz hc
    have e := hext z hz
    have h2 : infoMatrix (graphTerms s.w) *ᵥ (z ∘ hh.emb) = 0 := by
      funext c
      rw [hh.row hnr hnrB, ← e]
      exact hc c
    have h3 : z ∘ hh.emb = 0 := by
      by_contra hne
      have := hpd.dotProduct_mulVec_pos hne
      rw [h2, dotProduct_zero] at this
      exact lt_irrefl _ this
    rw [e, h3]
    funext i
    rw [Held.ext, World.spread]
    split <;> rfl
  obtain ⟨C, hC⟩ := penalty_bound hMpsd hW hh.emb hinj (infoVector (graphTerms w) - M *ᵥ Held.ext w s.w x)
  refine ⟨s1, x, |C|, h1, hx1, fun τ hτ s' hs' => ?_⟩
  have hWτ : ((w₀.fh f).reweigh (τ • (w₀.fh f).virt.W)).virt.W.PosSemidef := (hW.smul hτ).posSemidef
  obtain ⟨hg, hact⟩ := grown_reweigh (W := τ • (w₀.fh f).virt.W) h₀ hp hp' hN hF hf
  have hmem : ∀ {P : FRef → Prop}, (∀ g ∈ addedFactors ops, P g) → ∀ g ∈ addedFactors ops', g ≠ f → P g :=
    fun h g hg hne => h g ((List.mem_cons.mp (hF.mem_iff.mp hg)).resolve_left hne)
  have hw' := run_wellPosed (w₀ := w₀.reweigh f (τ • (w₀.fh f).virt.W)) h₀ (reweigh_proper' hp')
    (fun g hg => reweigh_prop (P := fun _ c => c.virt.W.PosSemidef) (fun _ => hWτ) (hmem hpsd g hg))
    (fun g hg => reweigh_prop (P := fun _ c => 0 ≤ c.weight) (fun _ => hwt f List.mem_cons_self) (hmem hwt1 g hg))
  have hnr' := run_noRansac (w₀ := w₀.reweigh f (τ • (w₀.fh f).virt.W)) h₀ (ops := ops')
    (fun g hg => reweigh_prop (P := fun _ c => c.virt.robust ≠ .ransac) (fun _ => hr f List.mem_cons_self) (hmem hr1 g hg))
  rw [← hs'] at hg hact hw' hnr'
  have hres' : ((w₀.fh f).reweigh (τ • (w₀.fh f).virt.W)).virt.res (((w₀.fh f).reweigh (τ • (w₀.fh f).virt.W)).nbrs.map
      fun n => (w.nh n).val) = 0 := by
    rw [hv]; exact hres
  have ha : cellWeight w ((w₀.fh f).reweigh (τ • (w₀.fh f).virt.W)) = 1 := by
    rw [cellWeight, hres']
    have e0 : factorChi2 ((w₀.fh f).reweigh (τ • (w₀.fh f).virt.W)).virt.W 0 = 0 := by
      rw [factorChi2, zero_dotProduct, mul_zero]
    rw [e0, Real.sqrt_zero]
    exact (C24_weight_partial (w₀.fh f).virt.robust (hr f List.mem_cons_self) 0 0 0 le_rfl le_rfl).2.2.1
  have hJW : ∀ y : Fin (w₀.fh f).virt.dim → ℝ, 0 ≤ y ⬝ᵥ ((τ • (w₀.fh f).virt.W) *ᵥ y) := fun y => by
    have := (hW.smul hτ).posSemidef.dotProduct_mulVec_nonneg y
    rwa [star_trivial] at this
  have hMn : ∀ z : Cols w → ℝ, 0 ≤ z ⬝ᵥ (M *ᵥ z) := fun z => by
    have := hMpsd.dotProduct_mulVec_nonneg z
    rwa [star_trivial] at this
  have hpd' : (infoMatrix (graphTerms s'.w)).PosDef := by
    refine Matrix.PosDef.of_dotProduct_mulVec_pos (FGraphSolve.terms_psd hw').isHermitian fun {x'} hx' => ?_
    rw [star_trivial, hg.form_cell hact hnr hnr', ha, one_mul]
    have e1 := hMn (x' ∘ hg.emb)
    have e2 := hJW (J *ᵥ (x' ∘ hg.emb))
    refine lt_of_le_of_ne (add_nonneg e1 e2) fun h0 => hx' (hg.emb_zero hact (hinj _ ?_ fun c => ?_))
    · by_contra hne
      have := (hW.smul hτ).dotProduct_mulVec_pos hne
      rw [star_trivial] at this
      exact absurd h0 (add_pos_of_nonneg_of_pos e1 this).ne
    · have e3 : (x' ∘ hg.emb) ⬝ᵥ (M *ᵥ (x' ∘ hg.emb)) = 0 := by
        have h0' : 0 = (x' ∘ hg.emb) ⬝ᵥ (M *ᵥ (x' ∘ hg.emb)) +
          (J *ᵥ (x' ∘ hg.emb)) ⬝ᵥ ((τ • (w₀.fh f).virt.W) *ᵥ (J *ᵥ (x' ∘ hg.emb))) := h0
        linarith
      have e4 := (hMpsd.dotProduct_mulVec_zero_iff (x' ∘ hg.emb)).mp (by rw [star_trivial]; exact e3)
      exact congrFun e4 _
  obtain ⟨s1', h1'⟩ := C36_returns env hcomp s' hw' hpd' k l t
  obtain ⟨x', hx', hx1'⟩ := FGraphSolve.gn_step henv hw' h1'
  refine ⟨s1', x', h1', hx1', fun n j => ?_⟩
  have heq := hg.equation hact hnr hnr' hx'
  rw [ha, hres', one_smul, one_smul, mulVec_zero, mulVec_zero, add_zero] at heq
  have heq' : M *ᵥ (x' ∘ hg.emb) + τ • (Jᵀ *ᵥ ((w₀.fh f).virt.W *ᵥ (J *ᵥ (x' ∘ hg.emb)))) = infoVector (graphTerms w) := by
    rw [← heq, ← mulVec_smul, ← smul_mulVec]
    rfl
  set d := x' ∘ hg.emb - Held.ext w s.w x with hd
  have hJd : J *ᵥ d = J *ᵥ (x' ∘ hg.emb) := by rw [hd, mulVec_sub, hJext, sub_zero]
  have hdg : M *ᵥ d + τ • (Jᵀ *ᵥ ((w₀.fh f).virt.W *ᵥ (J *ᵥ d))) = infoVector (graphTerms w) - M *ᵥ Held.ext w s.w x := by
    rw [hJd, ← heq', hd, mulVec_sub]
    abel
  have hdz : ∀ c, (M *ᵥ d) (hh.emb c) = 0 := by
    intro c
    have e1 := congrFun hdg (hh.emb c)
    rw [Pi.add_apply, Pi.smul_apply, hJt, smul_zero, add_zero, Pi.sub_apply, ← hh.row hnr hnrB, ← hh.rhs hnr hnrB, hx, sub_self] at e1
    exact e1
  have hfin := hC τ d hτ hdg hdz
  have hCC : C / τ ≤ |C| / τ := div_le_div_of_nonneg_right (le_abs_self C) hτ.le
  rw [← hg.spread_emb x' (hact n), ← hh.spread_ext, World.spread, World.spread]
  by_cases hnj : n ∈ w.g.active ∧ j < (w.nh n).dim
  · rw [dif_pos hnj, dif_pos hnj]
    exact (hfin _).trans hCC
  · rw [dif_neg hnj, dif_neg hnj, sub_zero, abs_zero]
    positivity

namespace Demo

/-- A prior of the pose 0 at its present value (factor 0), and the pose 1 measured from it (factor 1). -/
noncomputable def heldWorld₀ : World :=
  ⟨fun _ => NodeCell.new .pose2d 0 .standard, fun f => if f = 0 then FactorCell.new (.prior2d 0 1 .quadratic) [0] 0 0 else
    FactorCell.new (.rel2d ![2, 0, 0] 1 .quadratic) [0, 1] 0 0, emptyGraph⟩

/-- The graph without the prior. -/
def heldOps : List GraphOp := [.addNode 0, .addNode 1, .addFactor 1]

theorem held_zero : heldWorld₀.fh 0 = FactorCell.new (.prior2d 0 1 .quadratic) [0] 0 0 := by
  rw [heldWorld₀]; dsimp only; rw [if_pos rfl]
theorem held_one : heldWorld₀.fh 1 = FactorCell.new (.rel2d ![2, 0, 0] 1 .quadratic) [0, 1] 0 0 := by
  rw [heldWorld₀]; dsimp only; rw [if_neg (by change ¬ (1 : ℕ) = 0; decide)]
theorem held_else {f : FRef} (h : ¬ f = 0) : heldWorld₀.fh f = FactorCell.new (.rel2d ![2, 0, 0] 1 .quadratic) [0, 1] 0 0 := by
  rw [heldWorld₀]; dsimp only; rw [if_neg h]

theorem held_W (f : FRef) : (heldWorld₀.fh f).virt.W.PosDef := by
  by_cases h : f = 0
  · rw [h, held_zero]; exact Matrix.PosDef.one
  · rw [held_else h]; exact Matrix.PosDef.one

theorem held_plain (f : FRef) : 0 ≤ (heldWorld₀.fh f).weight ∧ (heldWorld₀.fh f).virt.robust ≠ .ransac := by
  by_cases h : f = 0
  · rw [h, held_zero]; exact ⟨le_refl (0 : ℝ), fun h => nomatch h⟩
  · rw [held_else h]; exact ⟨le_refl (0 : ℝ), fun h => nomatch h⟩

theorem held_proper (ops : List GraphOp) (hno : NoSetMode ops) (hn : addedNodes ops = [(0 : ℕ), 1]) : Proper heldWorld₀ ops := by
  have hnb : ∀ f, (heldWorld₀.fh f).nbrs = [(0 : ℕ)] ∨ (heldWorld₀.fh f).nbrs = [(0 : ℕ), 1] := by
    intro f
    by_cases h : f = 0
    · rw [h, held_zero]; exact .inl rfl
    · rw [held_else h]; exact .inr rfl
  refine ⟨hno, ?_, fun n _ => ?_, fun f _ n hf => .inl ?_, fun f _ => List.Nodup.filter _ ?_, fun f _ => ?_⟩
  · rw [hn]; decide
  · change Mode.standard ≠ Mode.schur; decide
  · rw [hn]
    rcases hnb f with h | h
    · rw [h] at hf
      exact List.mem_cons.mpr (Or.inl (List.mem_singleton.mp hf))
    · rw [h] at hf
      exact hf
  · rcases hnb f with h | h
    · rw [h]; decide
    · rw [h]; decide
  · by_cases h : f = 0
    · rw [h, held_zero]; rfl
    · rw [held_else h]; rfl

theorem held_noSetMode : NoSetMode heldOps := by
  intro op hop n m
  simp [heldOps] at hop
  rcases hop with rfl | rfl | rfl <;> simp

theorem grow_noSetMode : NoSetMode growOps' := by
  intro op hop n m
  simp [growOps'] at hop
  rcases hop with rfl | rfl | rfl | rfl <;> simp

theorem held_posDef : (infoMatrix (graphTerms (World.run heldOps (heldWorld₀.hold 0)))).PosDef := by
  have hp := held_proper heldOps held_noSetMode rfl
  have hw := run_wellPosed (w₀ := heldWorld₀.hold 0) rfl (hold_proper hp) (fun f _ => (held_W f).posSemidef) fun f _ => (held_plain f).1
  have hact : ∀ n, n ∈ (World.run heldOps (heldWorld₀.hold 0)).g.active → n = 1 := by
    intro n hn
    rw [mem_run_active (w₀ := heldWorld₀.hold 0) rfl held_noSetMode, hold_mode] at hn
    have h1 : n ∈ [(0 : ℕ), 1] := hn.1
    simp only [List.mem_cons, List.not_mem_nil, or_false] at h1
    rcases h1 with rfl | rfl
    · exact absurd hn.2 (by rw [if_pos rfl]; exact fun h => nomatch h)
    · rfl
  refine posDef_of_tied hw (fun f hf n hn X hX => ?_) fun n hn => ?_
  · rw [(run_nh_static heldOps (heldWorld₀.hold 0) n).1, hold_val] at hX
    exact absurd (congrArg Sigma.fst hX) (fun h => nomatch h)
  · obtain rfl := hact n hn
    refine .measured (f := 1) (known := [0]) (List.mem_singleton.mpr rfl) ?_ ?_ ?_ fun n hn => ?_
    · rw [(run_fh_static heldOps (heldWorld₀.hold 0) 1).1]; exact held_W 1
    · rw [(run_fh_static heldOps (heldWorld₀.hold 0) 1).1]; exact (held_plain 1).2
    · rw [(run_fh_static heldOps (heldWorld₀.hold 0) 1).1, (run_fh_static heldOps (heldWorld₀.hold 0) 1).2]
      change Fixes (heldWorld₀.fh 1).virt (heldWorld₀.fh 1).nbrs [0] 1
      rw [held_one]
      exact .rel2d
    · rw [List.mem_singleton] at hn
      refine .known fun h => ?_
      exact absurd ((hn.symm.trans (hact n h)) : (0 : ℕ) = 1) (by decide)

end Demo

/-- The pose 0 held by a prior at its present value, and the pose 1 measured from it. -/
example (n : NRef) : ∃ (s1 : FGraphSolve) (x : Cols (World.run Demo.heldOps (Demo.heldWorld₀.hold 0)) → ℝ) (C : ℝ),
    FGraphSolve.solve Env.exact .GN 1 0 0 ⟨World.run Demo.heldOps (Demo.heldWorld₀.hold 0), 0, 0, ⟨0, 0, 0, 0⟩, ⟨0, 0, 0, 0, 0⟩⟩ = .ok s1 ∧
    ∃ (s1' : FGraphSolve) (x' : Cols (World.run Demo.growOps' (Demo.heldWorld₀.reweigh 0 ((1000 : ℝ) • (Demo.heldWorld₀.fh 0).virt.W))) → ℝ),
      FGraphSolve.solve Env.exact .GN 1 0 0 ⟨World.run Demo.growOps' (Demo.heldWorld₀.reweigh 0 ((1000 : ℝ) • (Demo.heldWorld₀.fh 0).virt.W)),
        0, 0, ⟨0, 0, 0, 0⟩, ⟨0, 0, 0, 0, 0⟩⟩ = .ok s1' ∧
      ∀ j, |World.spread _ x' n j - World.spread _ x n j| ≤ C / 1000 := by
  have hF : (addedFactors Demo.growOps').Perm (0 :: addedFactors Demo.heldOps) := List.Perm.refl [(0 : ℕ), 1]
  have hN : (addedNodes Demo.growOps').Perm (addedNodes Demo.heldOps) := List.Perm.refl [(0 : ℕ), 1]
  have hfix : Fixes (Demo.heldWorld₀.fh 0).virt (Demo.heldWorld₀.fh 0).nbrs [] 0 := by rw [Demo.held_zero]; exact .prior2d
  have hres : (Demo.heldWorld₀.fh 0).virt.res ((Demo.heldWorld₀.fh 0).nbrs.map fun n => (Demo.heldWorld₀.nh n).val) = 0 := by
    have key : ∀ c : FactorCell, c = FactorCell.new (.prior2d 0 1 .quadratic) [0] 0 0 →
        c.virt.res (c.nbrs.map fun n => (Demo.heldWorld₀.nh n).val) = 0 := by
      rintro _ rfl
      change prior2dRes 0 0 = 0
      rw [prior2dRes, sub_zero]
      exact wrap2_eq_zero.mpr ⟨rfl, rfl, ⟨0, by simp⟩⟩
    exact key _ Demo.held_zero
  obtain ⟨s1, x, C, h1, -, h⟩ := C103_gn Demo.heldWorld₀ rfl Demo.heldOps Demo.growOps'
    (Demo.held_proper Demo.heldOps Demo.held_noSetMode rfl) (Demo.held_proper Demo.growOps' Demo.grow_noSetMode rfl) 0 0 hN hF
    (by change (0 : ℕ) ∉ [(1 : ℕ)]; decide) hfix (fun X hX => absurd (congrArg Sigma.fst hX) (fun h => nomatch h)) hres (Demo.held_W 0)
    (fun f _ => (Demo.held_W f).posSemidef) (fun f _ => (Demo.held_plain f).1) (fun f _ => (Demo.held_plain f).2)
    Env.exact Env.exact_sound Env.exact_complete
    ⟨World.run Demo.heldOps (Demo.heldWorld₀.hold 0), 0, 0, ⟨0, 0, 0, 0⟩, ⟨0, 0, 0, 0, 0⟩⟩ rfl Demo.held_posDef 1 0 0
  obtain ⟨s1', x', h1', -, hb⟩ := h 1000 (by norm_num)
    ⟨World.run Demo.growOps' (Demo.heldWorld₀.reweigh 0 ((1000 : ℝ) • (Demo.heldWorld₀.fh 0).virt.W)),
        0, 0, ⟨0, 0, 0, 0⟩, ⟨0, 0, 0, 0, 0⟩⟩ rfl
  exact ⟨s1, x, C, h1, s1', x', h1', hb n⟩

end Mrob
