import Verif.Lemmas.Influence
import Verif.Lemmas.Demo
import Verif.Props.Getters

/-!
# C102: the influence of one measurement with a robust kernel
-/

open Matrix

namespace Mrob

open World Spec

/-- C102: whatever a factor `f` with a robust kernel (Huber, Cauchy, McClure) measures, `solve(GN)` returns, and its step differs
by a bounded amount, that does not depend on the measured value, from the step without `f`. With the Cauchy and the McClure
kernel the difference even vanishes when the error `chi2` of the measurement grows. -/
theorem C102_gn (w₀ : World) (h₀ : w₀.g = emptyGraph) (ops ops' : List GraphOp) (hp : Proper w₀ ops) (hp' : Proper w₀ ops')
    (f : FRef) (hN : (addedNodes ops').Perm (addedNodes ops)) (hF : (addedFactors ops').Perm (f :: addedFactors ops))
    (hf : f ∉ addedFactors ops) (hrob : (w₀.fh f).virt.robust ≠ .quadratic)
    (hpsd : ∀ g ∈ f :: addedFactors ops, (w₀.fh g).virt.W.PosSemidef) (hwt : ∀ g ∈ f :: addedFactors ops, 0 ≤ (w₀.fh g).weight)
    (hr : ∀ g ∈ f :: addedFactors ops, (w₀.fh g).virt.robust ≠ .ransac)
    (env : Env) (henv : env.Sound) (hcomp : env.Complete) (s : FGraphSolve) (hs : s.w = World.run ops w₀)
    (hpd : (infoMatrix (graphTerms s.w)).PosDef) (k : ℕ) (l t : ℝ) :
    ∃ (s1 : FGraphSolve) (x : Cols s.w → ℝ) (B : ℝ), s.solve env .GN k l t = .ok s1 ∧
      (∀ n, (s1.w.nh n).val = ((s.w.moved (s.w.spread (-x))).nh n).val) ∧
      ∀ (ρ : List NodeVal → Fin (w₀.fh f).virt.dim → ℝ) (s' : FGraphSolve), s'.w = World.run ops' (w₀.remeasure f ρ) →
        ∃ (s1' : FGraphSolve) (x' : Cols s.w → ℝ), s'.solve env .GN k l t = .ok s1' ∧
          (∀ n, (s1'.w.nh n).val = ((s.w.moved (s.w.spread (-x'))).nh n).val) ∧ ∀ c, |x' c - x c| ≤ B ∧
            ((w₀.fh f).virt.robust = .cauchy ∨ (w₀.fh f).virt.robust = .mcclure →
              1 ≤ factorChi2 (w₀.fh f).virt.W (ρ ((w₀.fh f).nbrs.map fun n => (w₀.nh n).val)) →
              |x' c - x c| ≤ B / Real.sqrt (factorChi2 (w₀.fh f).virt.W (ρ ((w₀.fh f).nbrs.map fun n => (w₀.nh n).val)))) := by
  classical
  have hw := run_wellPosed h₀ hp (fun g hg => hpsd g (List.mem_cons_of_mem _ hg)) fun g hg => hwt g (List.mem_cons_of_mem _ hg)
  have hr1 := run_noRansac h₀ (ops := ops) fun g hg => hr g (List.mem_cons_of_mem _ hg)
  have hv : ∀ n, (s.w.nh n).val = (w₀.nh n).val := fun n => by rw [hs, (run_nh_static ops w₀ n).1]
  rw [← hs] at hw hr1
  obtain ⟨s1, h1⟩ := C36_returns env hcomp s hw hpd k l t
  obtain ⟨x, hx, hx1⟩ := FGraphSolve.gn_step henv hw h1
  obtain ⟨q, hq0, hq⟩ := posDef_bound hpd (cellJac s.w (w₀.fh f)) (w₀.fh f).virt.W
  set L := infoMatrix (graphTerms s.w) with hL
  set C : ℝ := ∑ c, Real.sqrt ((Pi.single c 1 : Cols s.w → ℝ) ⬝ᵥ (L⁻¹ *ᵥ Pi.single c 1)) with hC
  set D : ℝ := Real.sqrt q * (Real.sqrt 2 + Real.sqrt q * Real.sqrt (x ⬝ᵥ (L *ᵥ x))) with hD
  have hC0 : 0 ≤ C := Finset.sum_nonneg fun c _ => Real.sqrt_nonneg _
  have hD0 : 0 ≤ D := by positivity
  refine ⟨s1, x, C * D, h1, hx1, fun ρ s' hs' => ?_⟩
  have hmem : ∀ {P : FRef → FactorCell → Prop}, (∀ c : FactorCell, ∀ ρ, P f c → P f (c.remeasure ρ)) →
      (∀ g ∈ f :: addedFactors ops, P g (w₀.fh g)) → ∀ g ∈ addedFactors ops', P g ((w₀.remeasure f ρ).fh g) :=
    fun h1 h2 g hg => remeasure_prop h1 (h2 g (hF.mem_iff.mp hg))
  have hw' := run_wellPosed (w₀ := w₀.remeasure f ρ) h₀ (remeasure_proper hp')
    (hmem (P := fun _ c => c.virt.W.PosSemidef) (fun _ _ h => h) hpsd) (hmem (P := fun _ c => 0 ≤ c.weight) (fun _ _ h => h) hwt)
  have hr1' := run_noRansac (w₀ := w₀.remeasure f ρ) h₀ (ops := ops')
    (hmem (P := fun _ c => c.virt.robust ≠ .ransac) (fun _ _ h => h) hr)
  obtain ⟨hg, hact⟩ := grown_remeasure (ρ := ρ) h₀ hp hp' hN hF hf
  rw [← hs] at hg hact
  rw [← hs'] at hw' hr1' hg hact
  have hW : ((w₀.fh f).remeasure ρ).virt.W.PosSemidef := hpsd f List.mem_cons_self
  have hpd' := hg.posDef hact hr1 hr1' hpd (FGraphSolve.terms_psd hw').isHermitian hW
  obtain ⟨s1', h1'⟩ := C36_returns env hcomp s' hw' hpd' k l t
  obtain ⟨x', hx', hx1'⟩ := FGraphSolve.gn_step henv hw' h1'
  refine ⟨s1', x' ∘ hg.emb, h1', fun n => ?_, fun c => ?_⟩
  · rw [hx1' n]
    refine hg.moved_val hact (funext fun k => ?_)
    exact (hg.spread_emb (-x') (hact n) k).symm
  have heq := hg.equation hact hr1 hr1' hx'
  set r := ρ ((w₀.fh f).nbrs.map fun n => (w₀.nh n).val) with hrdef
  set W := (w₀.fh f).virt.W with hWdef
  have er : ((w₀.fh f).remeasure ρ).virt.res (((w₀.fh f).remeasure ρ).nbrs.map fun n => (s.w.nh n).val) = r := by
    rw [show (fun n => (s.w.nh n).val) = fun n => (w₀.nh n).val from funext hv]
    rfl
  set u := Real.sqrt (factorChi2 W r) with hu
  set a := robustWeight (w₀.fh f).virt.robust 0 u with ha
  have ea : cellWeight s.w ((w₀.fh f).remeasure ρ) = a := by
    rw [cellWeight, er]
    rfl
  rw [ea, er] at heq
  have hu0 : 0 ≤ u := Real.sqrt_nonneg _
  obtain ⟨ha0, ha1, -, -, hau, -⟩ := C24_weight_partial (w₀.fh f).virt.robust (hr f List.mem_cons_self) 0 u u hu0 le_rfl
  rw [← ha] at ha0 ha1 hau
  have hinf := influence_bound hpd (J := cellJac s.w (w₀.fh f)) (W := W) hW hq0 hq ha0.le hx heq
  have hrr : Real.sqrt (r ⬝ᵥ (W *ᵥ r)) = Real.sqrt 2 * u := by
    rw [hu, ← Real.sqrt_mul (by norm_num)]
    refine congrArg _ ?_
    rw [factorChi2]
    ring
  rw [hrr] at hinf
  have hbound : ∀ η, a * u ≤ η → a ≤ η → |(x' ∘ hg.emb) c - x c| ≤ C * D * η := by
    intro η h1 h2
    have hη : 0 ≤ η := ha0.le.trans h2
    have hcomp := posDef_apply hpd (Pi.single c 1) (x' ∘ hg.emb - x)
    rw [single_dotProduct, one_mul, Pi.sub_apply] at hcomp
    refine hcomp.trans ?_
    have hc : Real.sqrt ((Pi.single c 1 : Cols s.w → ℝ) ⬝ᵥ (L⁻¹ *ᵥ Pi.single c 1)) ≤ C :=
      Finset.single_le_sum (f := fun c => Real.sqrt ((Pi.single c 1 : Cols s.w → ℝ) ⬝ᵥ (L⁻¹ *ᵥ Pi.single c 1)))
        (fun c _ => Real.sqrt_nonneg _) (Finset.mem_univ c)
    have hd : Real.sqrt ((x' ∘ hg.emb - x) ⬝ᵥ (L *ᵥ (x' ∘ hg.emb - x))) ≤ D * η := by
      refine hinf.trans ?_
      rw [hD, mul_assoc]
      refine mul_le_mul_of_nonneg_left ?_ (Real.sqrt_nonneg _)
      have e1 : a * (Real.sqrt 2 * u) ≤ Real.sqrt 2 * η := by
        have := mul_le_mul_of_nonneg_left h1 (Real.sqrt_nonneg 2)
        linarith
      have e2 : a * (Real.sqrt q * Real.sqrt (x ⬝ᵥ (L *ᵥ x))) ≤ η * (Real.sqrt q * Real.sqrt (x ⬝ᵥ (L *ᵥ x))) :=
        mul_le_mul_of_nonneg_right h2 (by positivity)
      calc _ ≤ Real.sqrt 2 * η + η * (Real.sqrt q * Real.sqrt (x ⬝ᵥ (L *ᵥ x))) := add_le_add e1 e2
        _ = _ := by ring
    calc _ ≤ C * (D * η) := mul_le_mul hc hd (Real.sqrt_nonneg _) hC0
      _ = C * D * η := by ring
  refine ⟨by simpa using hbound 1 (hau hrob) ha1, fun hty h1 => ?_⟩
  have hu1 : 1 ≤ u := Real.one_le_sqrt.mpr h1
  have hupos : 0 < u := by linarith
  have hav : a * u ≤ 1 / u := by
    rw [le_div_iff₀ hupos, ha]
    have hp : 0 < 1 + u * u := by positivity
    have h1 : 1 / (1 + u * u) * u * u ≤ 1 := by
      rw [mul_assoc, div_mul_eq_mul_div, one_mul, div_le_one hp]
      linarith
    rcases hty with h | h
    · rw [h]
      exact h1
    · rw [h]
      refine le_trans ?_ h1
      change 1 / (1 + u * u) / (1 + u * u) * u * u ≤ _
      have : 1 / (1 + u * u) / (1 + u * u) ≤ 1 / (1 + u * u) := div_le_self (by positivity) (by nlinarith)
      exact mul_le_mul_of_nonneg_right (mul_le_mul_of_nonneg_right this hu0) hu0
  have := hbound (1 / u) hav (le_trans (le_mul_of_one_le_right ha0.le hu1) hav)
  rwa [mul_one_div] at this

/-- Which measurements `C102_gn` speaks about: for these classes another measured value is another residual function with the
same Jacobian. -/
theorem C102_measured (ty : Robust) :
    (∀ obs obs' W, ∃ ρ, ({ FactorVirt.prior2d obs W ty with res := ρ } : FactorVirt) = .prior2d obs' W ty) ∧
    (∀ obs obs' W, ∃ ρ, ({ FactorVirt.rel2d obs W ty with res := ρ } : FactorVirt) = .rel2d obs' W ty) ∧
    (∀ obs obs' W, ∃ ρ, ({ FactorVirt.prior3d obs W ty with res := ρ } : FactorVirt) = .prior3d obs' W ty) ∧
    (∀ obs obs' W rev, ∃ ρ, ({ FactorVirt.land2d obs W rev ty with res := ρ } : FactorVirt) = .land2d obs' W rev ty) ∧
    (∀ obs obs' W rev, ∃ ρ, ({ FactorVirt.land3d obs W rev ty with res := ρ } : FactorVirt) = .land3d obs' W rev ty) ∧
    ∀ obs obs' W rev, ∃ ρ, ({ FactorVirt.plane4d obs W rev ty with res := ρ } : FactorVirt) = .plane4d obs' W rev ty := by
  have gen : ∀ v v' : FactorVirt, (∃ d k r r' j W t, v = ⟨d, k, r, j, W, t⟩ ∧ v' = ⟨d, k, r', j, W, t⟩) →
      ∃ ρ, ({ v with res := ρ } : FactorVirt) = v' := by
    rintro _ _ ⟨d, k, r, r', j, W, t, rfl, rfl⟩
    exact ⟨r', rfl⟩
  refine ⟨fun obs obs' W => gen _ _ ?_, fun obs obs' W => gen _ _ ?_, fun obs obs' W => gen _ _ ?_, fun obs obs' W rev => gen _ _ ?_,
    fun obs obs' W rev => gen _ _ ?_, fun obs obs' W rev => gen _ _ ?_⟩
  · exact ⟨_, _, _, _, _, _, _, FactorVirt.prior2d.eq_1 obs W ty, FactorVirt.prior2d.eq_1 obs' W ty⟩
  · exact ⟨_, _, _, _, _, _, _, FactorVirt.rel2d.eq_1 obs W ty, FactorVirt.rel2d.eq_1 obs' W ty⟩
  · exact ⟨_, _, _, _, _, _, _, FactorVirt.prior3d.eq_1 obs W ty, FactorVirt.prior3d.eq_1 obs' W ty⟩
  · exact ⟨_, _, _, _, _, _, _, FactorVirt.land2d.eq_1 obs W rev ty, FactorVirt.land2d.eq_1 obs' W rev ty⟩
  · exact ⟨_, _, _, _, _, _, _, FactorVirt.land3d.eq_1 obs W rev ty, FactorVirt.land3d.eq_1 obs' W rev ty⟩
  · exact ⟨_, _, _, _, _, _, _, FactorVirt.plane4d.eq_1 obs W rev ty, FactorVirt.plane4d.eq_1 obs' W rev ty⟩

namespace Demo

/-- Two priors of one pose. -/
def twoOps : List GraphOp := [.addNode 0, .addFactor 0, .addFactor 1]

/-- Priors of one pose, all but the factor 0 with the kernel `ty`. -/
noncomputable def outWorld₀ (ty : Robust) : World :=
  ⟨fun _ => NodeCell.new .pose2d 0 .standard, fun f => FactorCell.new (.prior2d ![1, 0, 0] 1 (if f = 0 then .quadratic else ty)) [0] 0 0,
    emptyGraph⟩

theorem out_proper (ty : Robust) (ops : List GraphOp) (ho : NoSetMode ops) (hn : addedNodes ops = [0]) : Proper (outWorld₀ ty) ops := by
  refine ⟨ho, ?_, fun n _ => ?_, fun f _ n hf => ?_, fun f _ => ?_, fun f _ => rfl⟩
  · rw [hn]; exact List.nodup_singleton _
  · change Mode.standard ≠ Mode.schur; decide
  · left; rw [hn]; exact hf
  · exact List.Nodup.filter _ (List.nodup_singleton (0 : NRef))

theorem two_noSetMode : NoSetMode twoOps := by
  intro op hop n m
  simp [twoOps] at hop
  rcases hop with rfl | rfl | rfl <;> simp

theorem p3_noSetMode : NoSetMode p3Ops := by
  intro op hop n m
  simp [p3Ops] at hop
  rcases hop with rfl | rfl <;> simp

theorem out_posDef (ty : Robust) : (infoMatrix (graphTerms (World.run p3Ops (outWorld₀ ty)))).PosDef := by
  have hw := run_wellPosed (w₀ := outWorld₀ ty) rfl (out_proper ty p3Ops p3_noSetMode rfl) (fun f _ => Matrix.PosSemidef.one)
    fun f _ => le_refl (0 : ℝ)
  refine posDef_of_tied hw (fun f hf n hn X hX => ?_) fun n hn => ?_
  · rw [(run_nh_static p3Ops (outWorld₀ ty) n).1] at hX
    exact absurd (congrArg Sigma.fst hX) (fun h => nomatch h)
  · have : n ∈ [(0 : ℕ)] := hn
    rw [List.mem_singleton] at this
    subst this
    refine .measured (f := 0) (known := []) (List.mem_singleton.mpr rfl) ?_ ?_ ?_ (fun _ h => nomatch h)
    · rw [(run_fh_static p3Ops (outWorld₀ ty) 0).1]; exact Matrix.PosDef.one
    · rw [(run_fh_static p3Ops (outWorld₀ ty) 0).1]; exact fun h => nomatch h
    · rw [(run_fh_static p3Ops (outWorld₀ ty) 0).1, (run_fh_static p3Ops (outWorld₀ ty) 0).2]; exact .prior2d

end Demo

/-- Two priors of a pose, the second one with the Cauchy kernel: its measured value moves the estimate by a bounded amount. -/
example : ∃ (s1 : FGraphSolve) (x : Cols (World.run Demo.p3Ops (Demo.outWorld₀ .cauchy)) → ℝ) (B : ℝ),
    FGraphSolve.solve Env.exact .GN 1 0 0 ⟨World.run Demo.p3Ops (Demo.outWorld₀ .cauchy), 0, 0, ⟨0, 0, 0, 0⟩, ⟨0, 0, 0, 0, 0⟩⟩ = .ok s1 ∧
    ∀ z : Vec3, ∃ (s1' : FGraphSolve) (x' : Cols (World.run Demo.p3Ops (Demo.outWorld₀ .cauchy)) → ℝ),
      FGraphSolve.solve Env.exact .GN 1 0 0 ⟨World.run Demo.twoOps ((Demo.outWorld₀ .cauchy).remeasure 1
        (FactorVirt.prior2d z 1 .cauchy).res), 0, 0, ⟨0, 0, 0, 0⟩, ⟨0, 0, 0, 0, 0⟩⟩ = .ok s1' ∧ ∀ c, |x' c - x c| ≤ B := by
  have hF : (addedFactors Demo.twoOps).Perm (1 :: addedFactors Demo.p3Ops) := List.Perm.swap (1 : ℕ) 0 []
  have hrob : ∀ f : FRef, ((Demo.outWorld₀ .cauchy).fh f).virt.robust ≠ .ransac := by
    intro f
    change (if f = 0 then Robust.quadratic else .cauchy) ≠ .ransac
    split <;> exact fun h => nomatch h
  have hrob1 : ((Demo.outWorld₀ .cauchy).fh 1).virt.robust ≠ .quadratic := by
    change (if (1 : ℕ) = 0 then Robust.quadratic else .cauchy) ≠ .quadratic
    rw [if_neg (by decide)]
    exact fun h => nomatch h
  obtain ⟨s1, x, B, h1, -, h⟩ := C102_gn (Demo.outWorld₀ .cauchy) rfl Demo.p3Ops Demo.twoOps
    (Demo.out_proper .cauchy Demo.p3Ops Demo.p3_noSetMode rfl) (Demo.out_proper .cauchy Demo.twoOps Demo.two_noSetMode rfl) 1 (List.Perm.refl _) hF
    (by change (1 : ℕ) ∉ [(0 : ℕ)]; decide) hrob1 (fun _ _ => Matrix.PosSemidef.one) (fun _ _ => le_refl (0 : ℝ)) (fun f _ => hrob f)
    Env.exact Env.exact_sound Env.exact_complete
    ⟨World.run Demo.p3Ops (Demo.outWorld₀ .cauchy), 0, 0, ⟨0, 0, 0, 0⟩, ⟨0, 0, 0, 0, 0⟩⟩ rfl (Demo.out_posDef .cauchy) 1 0 0
  refine ⟨s1, x, B, h1, fun z => ?_⟩
  obtain ⟨s1', x', h1', -, hb⟩ := h (FactorVirt.prior2d z 1 .cauchy).res
    ⟨World.run Demo.twoOps ((Demo.outWorld₀ .cauchy).remeasure 1
        (FactorVirt.prior2d z 1 .cauchy).res), 0, 0, ⟨0, 0, 0, 0⟩, ⟨0, 0, 0, 0, 0⟩⟩ rfl
  exact ⟨s1', x', h1', fun c => (hb c).1⟩

/-- C102 needs the robust kernel: next to a prior of a pose, a second one without robust kernel moves the estimate as far as one
likes. -/
theorem C102_quadratic_fails : ∀ B : ℝ, ∃ (z : Vec3) (s1' : FGraphSolve) (y : Vec3),
    FGraphSolve.solve Env.exact .GN 1 0 0 ⟨World.run Demo.twoOps (Demo.unitWorld₀.remeasure 1 (FactorVirt.prior2d z 1 .quadratic).res),
      0, 0, ⟨0, 0, 0, 0⟩, ⟨0, 0, 0, 0, 0⟩⟩ = .ok s1' ∧ (s1'.w.nh 0).val = ⟨.pose2d, y⟩ ∧ B < y 0 := by
  intro B
  set z : Vec3 := ![2 * B + 1, 0, 0] with hz
  have hpi := Real.pi_pos
  have hp' : Proper Demo.unitWorld₀ Demo.twoOps := by
    refine ⟨Demo.two_noSetMode, List.nodup_singleton (0 : NRef), fun n _ => ?_, fun f _ n hf => Or.inl hf, fun f _ => ?_, fun f _ => rfl⟩
    · change Mode.standard ≠ Mode.schur; decide
    · exact List.Nodup.filter _ (List.nodup_singleton (0 : NRef))
  have hF : (addedFactors Demo.twoOps).Perm (1 :: addedFactors Demo.p3Ops) := List.Perm.swap (1 : ℕ) 0 []
  obtain ⟨hg, hact⟩ := grown_remeasure (w₀ := Demo.unitWorld₀) (f := 1) (ρ := (FactorVirt.prior2d z 1 .quadratic).res) rfl
    Demo.unit_proper hp' (List.Perm.refl _) hF (by change (1 : ℕ) ∉ [(0 : ℕ)]; decide)
  set w' := World.run Demo.twoOps (Demo.unitWorld₀.remeasure 1 (FactorVirt.prior2d z 1 .quadratic).res) with hw'def
  set c := (Demo.unitWorld₀.fh 1).remeasure (FactorVirt.prior2d z 1 .quadratic).res with hc
  have hr : NoRansac (World.run Demo.p3Ops Demo.unitWorld₀) := run_noRansac rfl fun g hg h => nomatch h
  have hrob : ∀ {P : FactorCell → Prop}, (∀ c : FactorCell, ∀ ρ, P c → P (c.remeasure ρ)) → P (Demo.unitWorld₀.fh 1) → ∀ g,
      P ((Demo.unitWorld₀.remeasure 1 (FactorVirt.prior2d z 1 .quadratic).res).fh g) :=
    fun {P} h1 h2 g => remeasure_prop (P := fun _ => P) h1 h2
  have hr' : NoRansac w' := run_noRansac rfl fun g _ =>
    hrob (P := fun c => c.virt.robust ≠ .ransac) (fun _ _ h => h) (fun h => nomatch h) g
  have hw' : WellPosed w' := run_wellPosed rfl (remeasure_proper hp')
    (fun g _ => hrob (P := fun c => c.virt.W.PosSemidef) (fun _ _ h => h) Matrix.PosSemidef.one g)
    fun g _ => hrob (P := fun c => 0 ≤ c.weight) (fun _ _ h => h) (le_refl (0 : ℝ)) g
  have hpd' := hg.posDef hact hr hr' Demo.unit_posDef (FGraphSolve.terms_psd hw').isHermitian Matrix.PosSemidef.one
  obtain ⟨s1', h1'⟩ := C36_returns Env.exact Env.exact_complete ⟨w', 0, 0, ⟨0, 0, 0, 0⟩, ⟨0, 0, 0, 0, 0⟩⟩ hw' hpd' 1 0 0
  obtain ⟨x', hx', hx1'⟩ := FGraphSolve.gn_step Env.exact_sound (s := ⟨w', 0, 0, ⟨0, 0, 0, 0⟩, ⟨0, 0, 0, 0, 0⟩⟩) hw' h1'
  have heq := hg.equation hact hr hr' hx'
  set y := x' ∘ hg.emb with hy
  have eJ : cellJac Demo.unitWorld c = (factorTerm Demo.unitWorld 0).J := rfl
  have ea : cellWeight (World.run Demo.p3Ops Demo.unitWorld₀) c = 1 := rfl
  have er : c.virt.res (c.nbrs.map fun n => ((World.run Demo.p3Ops Demo.unitWorld₀).nh n).val) = prior2dRes z 0 := rfl
  have e0 := congrFun heq ⟨⟨0, List.mem_singleton.mpr rfl⟩, (0 : Fin 3)⟩
  have hS : ∀ k : Fin 3, Demo.unitWorld.spread y 0 k = y ⟨⟨0, List.mem_singleton.mpr rfl⟩, k⟩ :=
    fun k => spread_apply y ⟨⟨0, List.mem_singleton.mpr rfl⟩, k⟩
  have hm : (infoMatrix (graphTerms Demo.unitWorld) *ᵥ y) ⟨⟨0, List.mem_singleton.mpr rfl⟩, (0 : Fin 3)⟩ =
      y ⟨⟨0, List.mem_singleton.mpr rfl⟩, (0 : Fin 3)⟩ := (Demo.unit_matrix y 0).trans (hS 0)
  have hJ1 : ((cellJac Demo.unitWorld c)ᵀ *ᵥ (c.virt.W *ᵥ (cellJac Demo.unitWorld c *ᵥ y))) ⟨⟨0, List.mem_singleton.mpr rfl⟩, (0 : Fin 3)⟩ =
      y ⟨⟨0, List.mem_singleton.mpr rfl⟩, (0 : Fin 3)⟩ := by
    refine (Demo.unit_transpose ((1 : Mat3) *ᵥ ((factorTerm Demo.unitWorld 0).J *ᵥ y)) 0).trans ?_
    refine (congrFun (one_mulVec _) _).trans ?_
    exact (Demo.unit_row y 0).trans (hS 0)
  have hJ2 : ((cellJac Demo.unitWorld c)ᵀ *ᵥ (c.virt.W *ᵥ prior2dRes z 0)) ⟨⟨0, List.mem_singleton.mpr rfl⟩, (0 : Fin 3)⟩ = -(2 * B + 1) := by
    refine (Demo.unit_transpose ((1 : Mat3) *ᵥ prior2dRes z 0) 0).trans ?_
    rw [one_mulVec, prior2dRes, zero_sub]
    rw [wrap2_0, hz]
    rfl
  have e1 : y ⟨⟨0, List.mem_singleton.mpr rfl⟩, (0 : Fin 3)⟩ = -(B + 1) := by
    rw [ea, er, one_smul, one_smul] at e0
    have e2 : y ⟨⟨0, List.mem_singleton.mpr rfl⟩, (0 : Fin 3)⟩ + y ⟨⟨0, List.mem_singleton.mpr rfl⟩, (0 : Fin 3)⟩ =
        (![-1, 0, 0] : Vec3) 0 + -(2 * B + 1) := (congrArg₂ (· + ·) hm hJ1).symm.trans (e0.trans (congrArg₂ (· + ·) (Demo.unit_vector 0) hJ2))
    have e3 : (![-1, 0, 0] : Vec3) 0 = -1 := rfl
    rw [e3] at e2
    linarith
  refine ⟨z, s1', wrap2 (0 + fun k : Fin 3 => w'.spread (-x') 0 k), h1', ?_, ?_⟩
  · rw [hx1' 0]
    rfl
  · have e2 : w'.spread (-x') 0 0 = B + 1 := by
      rw [← hg.spread_emb (-x') (hact 0)]
      refine (spread_apply (w := Demo.unitWorld) (-y) ⟨⟨0, List.mem_singleton.mpr rfl⟩, (0 : Fin 3)⟩).trans ?_
      exact (congrArg Neg.neg e1).trans (neg_neg _)
    rw [wrap2_0, zero_add]
    change B < w'.spread (-x') 0 0
    rw [e2]
    exact lt_add_one B

end Mrob
