import Verif.Lemmas.Parts

/-!
# Two planar poses, each with a prior
-/

open Matrix

namespace Mrob

open World Spec

namespace Demo

/-- Both poses are at the origin; the priors are at `(1, 0, 0)`, with little information, and at `(10, 0, 0)`. -/
noncomputable def partWorld₀ : World :=
  ⟨fun _ => NodeCell.new .pose2d 0 .standard,
    fun f => if f = 0 then FactorCell.new (.prior2d ![1, 0, 0] ((1e-6 : ℝ) • 1) .quadratic) [0] 0 0
      else FactorCell.new (.prior2d ![10, 0, 0] ((1 : ℝ) • 1) .quadratic) [1] 0 0, emptyGraph⟩
/-- Both. -/
def partOps : List GraphOp := [.addNode 0, .addNode 1, .addFactor 0, .addFactor 1]
/-- The first one only. -/
def partOps' : List GraphOp := [.addNode 0, .addFactor 0]

theorem part_fh0 : partWorld₀.fh 0 = FactorCell.new (.prior2d ![1, 0, 0] ((1e-6 : ℝ) • 1) .quadratic) [0] 0 0 := by
  rw [partWorld₀]
  dsimp only
  rw [if_pos rfl]
theorem part_fh1 : partWorld₀.fh 1 = FactorCell.new (.prior2d ![10, 0, 0] ((1 : ℝ) • 1) .quadratic) [1] 0 0 := by
  rw [partWorld₀]
  dsimp only
  rw [if_neg (one_ne_zero (α := ℕ))]

theorem part_proper : Proper partWorld₀ partOps := by
  constructor
  · intro op hop n m; simp [partOps] at hop; rcases hop with rfl | rfl | rfl | rfl <;> simp
  · simp [addedNodes, partOps]
  · intro n hn; simp [partWorld₀, NodeCell.new]
  all_goals
    intro f hf
    simp [addedFactors, partOps] at hf
  · intro n hn
    rcases hf with rfl | rfl
    · rw [part_fh0] at hn; simp [FactorCell.new] at hn; left; subst hn; simp [addedNodes, partOps]
    · rw [part_fh1] at hn; simp [FactorCell.new] at hn; left; subst hn; simp [addedNodes, partOps]
  · rcases hf with rfl | rfl
    · rw [part_fh0]; exact (List.nodup_singleton _).filter _
    · rw [part_fh1]; exact (List.nodup_singleton _).filter _
  · rcases hf with rfl | rfl
    · rw [part_fh0]; simp [partWorld₀, FactorCell.new, NodeCell.new, FactorCell.wellTyped, FactorVirt.prior2d]
    · rw [part_fh1]; simp [partWorld₀, FactorCell.new, NodeCell.new, FactorCell.wellTyped, FactorVirt.prior2d]

theorem part_proper' : Proper partWorld₀ partOps' := by
  constructor
  · intro op hop n m; simp [partOps'] at hop; rcases hop with rfl | rfl <;> simp
  · simp [addedNodes, partOps']
  · intro n hn; simp [partWorld₀, NodeCell.new]
  all_goals
    intro f hf
    simp [addedFactors, partOps'] at hf
    subst hf
    rw [part_fh0]
  · intro n hn
    simp [FactorCell.new] at hn; left; subst hn; simp [addedNodes, partOps']
  · exact (List.nodup_singleton _).filter _
  · simp [partWorld₀, FactorCell.new, NodeCell.new, FactorCell.wellTyped, FactorVirt.prior2d]

theorem part_psd : ∀ f, (partWorld₀.fh f).virt.W.PosSemidef := by
  intro f
  by_cases hf : f = 0
  · subst hf
    rw [part_fh0]
    exact (Matrix.PosSemidef.one (n := Fin 3)).smul (by norm_num : (0 : ℝ) ≤ 1e-6)
  · rw [show partWorld₀.fh f = _ from if_neg hf]
    exact (Matrix.PosSemidef.one (n := Fin 3)).smul (by norm_num : (0 : ℝ) ≤ 1)

theorem part_weight : ∀ f, 0 ≤ (partWorld₀.fh f).weight := by
  intro f
  by_cases hf : f = 0
  · subst hf
    rw [part_fh0]
    exact le_refl (0 : ℝ)
  · rw [show partWorld₀.fh f = _ from if_neg hf]
    exact le_refl (0 : ℝ)

theorem part_plain : ∀ f, (partWorld₀.fh f).virt.robust = .quadratic := by
  intro f
  by_cases hf : f = 0
  · subst hf
    rw [part_fh0]
    rfl
  · rw [show partWorld₀.fh f = _ from if_neg hf]
    rfl

/-- The node `n` has the prior `f` at `(p, 0, 0)` with the information `ω` and no other factor. -/
structure OnlyPrior (w : World) (n : NRef) (f : FRef) (p ω : ℝ) : Prop where
  /-- unknown -/
  mem : n ∈ w.g.active
  /-- the prior -/
  virt : (w.fh f).virt = .prior2d ![p, 0, 0] (ω • 1) .quadratic
  /-- its node -/
  nbrs : (w.fh f).nbrs = [n]
  /-- no other factor -/
  only : ∀ V x y, partSum (· = n) (fun _ => False) w V x y = quadTerm V x y (w.fh f)

theorem OnlyPrior.of_frame {w w' : World} {n : NRef} {f : FRef} {p ω : ℝ} (h : OnlyPrior w n f p ω) (hF : Frame w w') :
    OnlyPrior w' n f p ω := by
  classical
  refine ⟨by rw [hF.factors.g]; exact h.mem, by rw [hF.factors.virt, h.virt], by rw [hF.factors.nbrs, h.nbrs], fun V x y => ?_⟩
  have key : ∀ g, quadTerm V x y (w'.fh g) = quadTerm V x y (w.fh g) := by
    intro g
    unfold quadTerm
    rw [hF.factors.virt, hF.factors.nbrs]
  rw [key, ← h.only]
  unfold partSum
  rw [hF.factors.g]
  refine congrArg List.sum ?_
  have e : (fun f => decide (Touches (· = n) (fun _ => False) (w'.fh f))) = fun f => decide (Touches (· = n) (fun _ => False) (w.fh f)) := by
    funext g
    unfold Touches
    rw [hF.factors.nbrs]
  rw [List.map_congr_left fun g _ => key g, e]

theorem prior_quad {V : NRef → NodeVal} {c : FactorCell} {n : NRef} {p ω : ℝ}
    (hv : c.virt = .prior2d ![p, 0, 0] (ω • 1) .quadratic) (hn : c.nbrs = [n]) (k : Fin 3) (y) :
    quadTerm V (jacRow V n k) y c = ω * y (FactorVirt.prior2d ![p, 0, 0] (ω • 1) .quadratic).core [n] k := by
  obtain ⟨virt, nbrs, i, r, J, chi2, wt⟩ := c
  dsimp only at hv hn
  subst hv hn
  unfold quadTerm
  have h1 : ∀ l : Fin 3, jacRow V n k (FactorVirt.prior2d ![p, 0, 0] (ω • 1) .quadratic).core [n] l = if l = k then 1 else 0 := by
    intro l
    change (if n = n then blk prior2dJac l (0 + k) else 0) + (0 : ℝ) = _
    rw [if_pos rfl, add_zero, zero_add, blk, dif_pos k.2]
    exact Matrix.one_apply
  have key : ∀ (a b : Fin 3 → ℝ), (∀ l, a l = if l = k then 1 else 0) → (1 : ℝ) * (a ⬝ᵥ ((ω • (1 : Mat3)) *ᵥ b)) = ω * b k := by
    intro a b ha
    rw [one_mul, smul_mulVec, one_mulVec, dotProduct_smul, smul_eq_mul, dotProduct]
    simp only [ha, ite_mul, one_mul, zero_mul, Finset.sum_ite_eq', Finset.mem_univ, if_true]
  exact key _ _ h1

theorem prior_step {V : NRef → NodeVal} {n : NRef} {x0 : Vec3} (hV : V n = ⟨.pose2d, x0⟩) (σ : NRef → ℕ → ℝ) (p : Vec3) (W : Mat3) (ty)
    (k : Fin 3) : jacStep V σ (FactorVirt.prior2d p W ty).core [n] k = σ n k := by
  change rowSum V σ (blk prior2dJac k) 0 [n] = _
  rw [rowSum, rowSum, add_zero]
  have : ∀ d : ℕ, d = 3 → ∑ l : Fin d, blk prior2dJac k (0 + l) * σ n l = ∑ l : Fin 3, blk prior2dJac k (0 + l) * σ n l := by
    rintro _ rfl; rfl
  rw [this _ (by rw [hV]; rfl)]
  have h3 : ∀ l : Fin 3, blk prior2dJac k (0 + l) = if k = l then 1 else 0 := by
    intro l
    rw [zero_add, blk, dif_pos l.2]
    exact Matrix.one_apply
  simp only [h3, ite_mul, one_mul, zero_mul, Finset.sum_ite_eq, Finset.mem_univ, if_true]

theorem prior_res (p a : ℝ) : prior2dRes ![p, 0, 0] ![a, 0, 0] = ![a - p, 0, 0] := by
  have hp := Real.pi_pos
  have e : (![a, 0, 0] - ![p, 0, 0] : Vec3) = ![a - p, 0, 0] := by
    funext i; fin_cases i <;> simp
  rw [prior2dRes, e]
  exact wrap2_of_mem (x := ![a - p, 0, 0]) (by simpa using hp.le) (by simpa using hp)

/-- One iteration moves the pose towards the prior. -/
theorem prior_trial {env : Env} (henv : env.Sound) {s s' : FGraphSolve} {delta : ℝ} (hw : WellPosed s.w) (hr : NoRansac s.w)
    (hl : 0 < s.lambda) (h : s.trial env = .ok (delta, s')) {n : NRef} {f : FRef} {p ω a : ℝ} (hω : 0 < ω)
    (ho : OnlyPrior s.w n f p ω) (hv : (s.w.nh n).val = ⟨.pose2d, ![a, 0, 0]⟩) :
    (s'.w.nh n).val = ⟨.pose2d, ![a + (p - a) * (ω / (ω + s.lambda)), 0, 0]⟩ := by
  obtain ⟨x, h1, h2, -, -⟩ := FGraphSolve.trial_model henv hw h
  have hdim : (s.w.nh n).dim = 3 := congrArg (fun v : NodeVal => v.1.dim) hv
  have h3 : ∀ k : Fin 3, s.w.spread x n k = (![a - p, 0, 0] : Vec3) k * (ω / (ω + s.lambda)) := by
    intro k
    have hk : (k : ℕ) < (s.w.nh n).dim := by rw [hdim]; exact k.2
    have e := congrFun h1 ⟨⟨n, ho.mem⟩, ⟨k, hk⟩⟩
    rw [Pi.add_apply, Pi.smul_apply, smul_eq_mul, infoMatrix_mulVec_quad hr, infoVector_quad hr] at e
    dsimp only at e
    rw [quadSum_part (S := (· = n)) (F := fun _ => False) _ rfl (fun h => h),
      quadSum_part (S := (· = n)) (F := fun _ => False) _ rfl (fun h => h), ho.only, ho.only,
      prior_quad ho.virt ho.nbrs k, prior_quad ho.virt ho.nbrs k] at e
    have e1 : x ⟨⟨n, ho.mem⟩, ⟨k, hk⟩⟩ = s.w.spread x n k := (spread_apply x ⟨⟨n, ho.mem⟩, ⟨k, hk⟩⟩).symm
    have e2 := prior_step (V := fun n => (s.w.nh n).val) hv (s.w.spread x) ![p, 0, 0] (ω • 1) .quadratic k
    rw [e1, e2] at e
    have e3 : (FactorVirt.prior2d ![p, 0, 0] (ω • 1) .quadratic).core.res ([n].map fun n => (s.w.nh n).val) k =
        (![a - p, 0, 0] : Vec3) k := by
      rw [List.map_singleton, hv]
      exact congrFun (prior_res p a) k
    rw [e3] at e
    field_simp
    linarith
  have hupd : ((s.w.moved (s.w.spread (-x))).nh n).val =
      ⟨(s.w.nh n).val.1, (s.w.nh n).val.1.upd (s.w.nh n).val.2 ((s.w.nh n).val.1.ofFlat (s.w.spread (-x) n))⟩ := by
    change (if n ∈ s.w.g.active then (s.w.nh n).update (s.w.spread (-x) n) else s.w.nh n).val = _
    rw [if_pos ho.mem]
    rfl
  rw [h2 n, hupd, hv]
  have h4 : NodeKind.ofFlat .pose2d (s.w.spread (-x) n) = (![(p - a) * (ω / (ω + s.lambda)), 0, 0] : Vec3) := by
    change (fun k : Fin 3 => s.w.spread (-x) n k) = _
    funext k
    rw [World.spread_neg, Pi.neg_apply, h3]
    fin_cases k <;> simp
    ring
  have hp := Real.pi_pos
  have h5 : NodeKind.upd .pose2d (![a, 0, 0] : Vec3) (![(p - a) * (ω / (ω + s.lambda)), 0, 0] : Vec3) =
      (![a + (p - a) * (ω / (ω + s.lambda)), 0, 0] : Vec3) := by
    change wrap2 (![a, 0, 0] + ![(p - a) * (ω / (ω + s.lambda)), 0, 0]) = _
    have e : (![a, 0, 0] + ![(p - a) * (ω / (ω + s.lambda)), 0, 0] : Vec3) = ![a + (p - a) * (ω / (ω + s.lambda)), 0, 0] := by
      funext i; fin_cases i <;> simp
    rw [e]
    exact wrap2_of_mem (x := ![a + (p - a) * (ω / (ω + s.lambda)), 0, 0]) (by simpa using hp.le) (by simpa using hp)
  dsimp only
  rw [h4, h5]

theorem prior_chi2 {V : NRef → NodeVal} {c : FactorCell} {n : NRef} {p ω a : ℝ}
    (hv : c.virt = .prior2d ![p, 0, 0] (ω • 1) .quadratic) (hn : c.nbrs = [n]) (hV : V n = ⟨.pose2d, ![a, 0, 0]⟩) :
    costTerm V c = ω * (a - p) ^ 2 / 2 := by
  obtain ⟨virt, nbrs, i, r, J, chi2, wt⟩ := c
  dsimp only at hv hn
  subst hv hn
  unfold costTerm
  rw [List.map_singleton, hV]
  change factorChi2 (ω • (1 : Mat3)) (prior2dRes ![p, 0, 0] ![a, 0, 0]) = _
  rw [prior_res]
  simp only [factorChi2, smul_mulVec, one_mulVec, dotProduct, Fin.sum_univ_three, cons_val_zero, cons_val_one, cons_val, Pi.smul_apply,
    smul_eq_mul]
  ring

theorem shrink {e ω l : ℝ} (hω : 0 < ω) (hl : 0 < l) : 0 ≤ e ^ 2 - (e - e * (ω / (ω + l))) ^ 2 := by
  have h1 : 0 ≤ ω / (ω + l) := by positivity
  have h2 : ω / (ω + l) ≤ 1 := by rw [div_le_one (by positivity)]; linarith
  have : e ^ 2 - (e - e * (ω / (ω + l))) ^ 2 = e ^ 2 * ((ω / (ω + l)) * (2 - ω / (ω + l))) := by ring
  rw [this]
  have : 0 ≤ 2 - ω / (ω + l) := by linarith
  positivity

/-- The state of both poses. -/
structure PartState (s : FGraphSolve) (a b : ℝ) : Prop where
  /-- graph -/
  frame : Frame (World.run partOps partWorld₀) s.w
  /-- weights -/
  well : WellPosed s.w
  /-- damping -/
  lambda : 0 < s.lambda
  /-- first pose -/
  fst : (s.w.nh 0).val = ⟨.pose2d, ![a, 0, 0]⟩
  /-- second pose -/
  snd : (s.w.nh 1).val = ⟨.pose2d, ![b, 0, 0]⟩

theorem part_noRansac (ops : List GraphOp) : NoRansac (World.run ops partWorld₀) :=
  run_noRansac rfl fun f _ => by rw [part_plain]; simp

theorem part_active : (World.run partOps partWorld₀).g.active = [0, 1] := by
  rw [run_active _ part_proper.noSetMode]
  simp [partWorld₀, emptyGraph, addedNodes, partOps, NodeCell.new]

theorem part_active' : (World.run partOps' partWorld₀).g.active = [0] := by
  rw [run_active _ part_proper'.noSetMode]
  simp [partWorld₀, emptyGraph, addedNodes, partOps', NodeCell.new]

theorem part_only (n : NRef) (f g : FRef) (ops : List GraphOp) (hfac : (World.run ops partWorld₀).g.factors = [f, g] ∨
    (World.run ops partWorld₀).g.factors = [g, f] ∨ (World.run ops partWorld₀).g.factors = [f])
    (hf : (partWorld₀.fh f).nbrs = [n]) (hg : n ∉ (partWorld₀.fh g).nbrs) (V x y) :
    partSum (· = n) (fun _ => False) (World.run ops partWorld₀) V x y = quadTerm V x y ((World.run ops partWorld₀).fh f) := by
  classical
  have h1 : Touches (· = n) (fun _ => False) ((World.run ops partWorld₀).fh f) := by
    refine ⟨n, ?_, rfl, fun h => h⟩
    rw [(run_fh_static ops partWorld₀ f).2, hf]
    exact List.mem_singleton.mpr rfl
  have h2 : ¬ Touches (· = n) (fun _ => False) ((World.run ops partWorld₀).fh g) := by
    rintro ⟨m, hm, rfl, -⟩
    rw [(run_fh_static ops partWorld₀ g).2] at hm
    exact hg hm
  unfold partSum
  rcases hfac with hfac | hfac | hfac <;> rw [hfac] <;> simp [h1, h2]

theorem part_prior0 : OnlyPrior (World.run partOps partWorld₀) 0 0 1 1e-6 := by
  refine ⟨by rw [part_active]; simp, ?_, ?_,
    part_only 0 0 1 _ (Or.inl rfl) (by rw [part_fh0]; rfl) (by rw [part_fh1]; simp [FactorCell.new])⟩
  · rw [(run_fh_static _ _ _).1, part_fh0]; rfl
  · rw [(run_fh_static _ _ _).2, part_fh0]; rfl

theorem part_prior1 : OnlyPrior (World.run partOps partWorld₀) 1 1 10 1 := by
  refine ⟨by rw [part_active]; simp, ?_, ?_,
    part_only 1 1 0 _ (Or.inr (Or.inl rfl)) (by rw [part_fh1]; rfl) (by rw [part_fh0]; simp [FactorCell.new])⟩
  · rw [(run_fh_static _ _ _).1, part_fh1]; rfl
  · rw [(run_fh_static _ _ _).2, part_fh1]; rfl

theorem part_prior' : OnlyPrior (World.run partOps' partWorld₀) 0 0 1 1e-6 := by
  refine ⟨by rw [part_active']; simp, ?_, ?_,
    part_only 0 0 1 _ (Or.inr (Or.inr rfl)) (by rw [part_fh0]; rfl) (by rw [part_fh1]; simp [FactorCell.new])⟩
  · rw [(run_fh_static _ _ _).1, part_fh0]; rfl
  · rw [(run_fh_static _ _ _).2, part_fh0]; rfl

theorem part_cost {s : FGraphSolve} {a b : ℝ} (h : PartState s a b) :
    s.w.cost = 1e-6 * (a - 1) ^ 2 / 2 + (b - 10) ^ 2 / 2 := by
  have h0 := part_prior0.of_frame h.frame
  have h1 := part_prior1.of_frame h.frame
  have e : s.w.cost = ((World.run partOps partWorld₀).g.factors.map fun f => costTerm (fun n => (s.w.nh n).val) (s.w.fh f)).sum := by
    rw [← h.frame.factors.g]; rfl
  rw [e]
  change costTerm _ (s.w.fh 0) + (costTerm _ (s.w.fh 1) + 0) = _
  rw [prior_chi2 h0.virt h0.nbrs h.fst, prior_chi2 h1.virt h1.nbrs h.snd]
  ring

/-- One iteration on both poses. -/
theorem part_trial {env : Env} (henv : env.Sound) {s s' : FGraphSolve} {delta a b : ℝ} (hs : PartState s a b)
    (h : s.trial env = .ok (delta, s')) :
    PartState s' (a + (1 - a) * (1e-6 / (1e-6 + s.lambda))) (b + (10 - b) * (1 / (1 + s.lambda))) ∧ 0 ≤ delta ∧
    delta = 1e-6 * (a - 1) ^ 2 / 2 + (b - 10) ^ 2 / 2 -
      (1e-6 * (a + (1 - a) * (1e-6 / (1e-6 + s.lambda)) - 1) ^ 2 / 2 + (b + (10 - b) * (1 / (1 + s.lambda)) - 10) ^ 2 / 2) := by
  have hr : NoRansac s.w := (part_noRansac _).of_factors hs.frame.factors
  obtain ⟨-, hlam, -, -, -, hd, -⟩ := FGraphSolve.trial_ok h
  obtain ⟨x, -, -, -, hw'⟩ := FGraphSolve.trial_model henv hs.well h
  have hS : PartState s' (a + (1 - a) * (1e-6 / (1e-6 + s.lambda))) (b + (10 - b) * (1 / (1 + s.lambda))) :=
    ⟨hs.frame.trans (FGraphSolve.trial_frame h), hw', by rw [hlam]; exact hs.lambda,
      prior_trial henv hs.well hr hs.lambda h (by norm_num) (part_prior0.of_frame hs.frame) hs.fst,
      prior_trial henv hs.well hr hs.lambda h (by norm_num) (part_prior1.of_frame hs.frame) hs.snd⟩
  have hd' := hd
  rw [part_cost hs, part_cost hS] at hd'
  refine ⟨hS, ?_, hd'⟩
  have h1 := shrink (e := 1 - a) (by norm_num : (0 : ℝ) < 1e-6) hs.lambda
  have h2 := shrink (e := 10 - b) (by norm_num : (0 : ℝ) < 1) hs.lambda
  rw [hd']
  have e1 : (a + (1 - a) * (1e-6 / (1e-6 + s.lambda)) - 1) ^ 2 = ((1 - a) - (1 - a) * (1e-6 / (1e-6 + s.lambda))) ^ 2 := by ring
  have e2 : (b + (10 - b) * (1 / (1 + s.lambda)) - 10) ^ 2 = ((10 - b) - (10 - b) * (1 / (1 + s.lambda))) ^ 2 := by ring
  rw [e1, e2]
  have e3 : (a - 1) ^ 2 = (1 - a) ^ 2 := by ring
  have e4 : (b - 10) ^ 2 = (10 - b) ^ 2 := by ring
  rw [e3, e4]
  linarith

theorem forward {a l : ℝ} (ha : a < 1) (hl : 0 < l) :
    a < a + (1 - a) * (1e-6 / (1e-6 + l)) ∧ a + (1 - a) * (1e-6 / (1e-6 + l)) < 1 := by
  have h1 : (0 : ℝ) < 1e-6 / (1e-6 + l) := by
    have : (0 : ℝ) < 1e-6 := by norm_num
    positivity
  have h2 : (1e-6 : ℝ) / (1e-6 + l) < 1 := by
    rw [div_lt_one (by norm_num; linarith)]
    linarith
  constructor <;> nlinarith

theorem PartState.adapt {s : FGraphSolve} {a b : ℝ} (h : PartState s a b) (d : ℝ) : PartState (s.adapt d) a b :=
  ⟨h.frame, h.well, FGraphSolve.nextLambda_pos h.lambda, h.fst, h.snd⟩

/-- Every run moves the first pose further. -/
theorem part_run {env : Env} (henv : env.Sound) {maxIters iter : ℕ} {s : FGraphSolve} {r : FGraphSolve.LMResult}
    (h : FGraphSolve.LMRun env maxIters iter s r) : ∀ {a b : ℝ}, PartState s a b → a < 1 →
    ∃ a', a < a' ∧ (r.s.w.nh 0).val = ⟨.pose2d, ![a', 0, 0]⟩ := by
  induction h with
  | rejectLast h1 h2 _ => intro a b hs _; exact absurd (part_trial henv hs h1).2.1 (not_le.mpr h2)
  | rejectNext h1 h2 _ _ _ => intro a b hs _; exact absurd (part_trial henv hs h1).2.1 (not_le.mpr h2)
  | converged h1 _ _ => intro a b hs ha; exact ⟨_, (forward ha hs.lambda).1, (part_trial henv hs h1).1.fst⟩
  | acceptLast h1 _ _ _ => intro a b hs ha; exact ⟨_, (forward ha hs.lambda).1, (part_trial henv hs h1).1.fst⟩
  | acceptNext h1 _ _ _ _ ih =>
    intro a b hs ha
    obtain ⟨a', h2, h3⟩ := ih ((part_trial henv hs h1).1.adapt _) (forward ha hs.lambda).2
    exact ⟨a', (forward ha hs.lambda).1.trans h2, h3⟩

theorem part_start (ops : List GraphOp) (n : NRef) : ((World.run ops partWorld₀).nh n).val = ⟨.pose2d, ![0, 0, 0]⟩ := by
  rw [(run_nh_static ops partWorld₀ n).1]
  change (⟨.pose2d, (0 : Vec3)⟩ : NodeVal) = _
  have : (0 : Vec3) = ![0, 0, 0] := by funext i; fin_cases i <;> rfl
  rw [this]

/-- With the second pose in the graph, the first one gets further than after one iteration. -/
theorem part_both {env : Env} (henv : env.Sound) {maxIters : ℕ} (hm : 2 ≤ maxIters) {s : FGraphSolve} {r : FGraphSolve.LMResult}
    (hs : s.w = World.run partOps partWorld₀) (hl : s.lambda = 1e-5) (ht : s.tol = 1e-2)
    (h : FGraphSolve.LMRun env maxIters 0 s r) : ∃ a, 1 / 11 < a ∧ (r.s.w.nh 0).val = ⟨.pose2d, ![a, 0, 0]⟩ := by
  have h0 : PartState s 0 0 := by
    refine ⟨by rw [hs]; exact Frame.refl _, by rw [hs]; exact run_wellPosed rfl part_proper (fun f _ => part_psd f) fun f _ => part_weight f,
      by rw [hl]; norm_num, by rw [hs]; exact part_start _ _, by rw [hs]; exact part_start _ _⟩
  cases h with
  | rejectLast h1 h2 _ => exact absurd (part_trial henv h0 h1).2.1 (not_le.mpr h2)
  | rejectNext h1 h2 _ _ => exact absurd (part_trial henv h0 h1).2.1 (not_le.mpr h2)
  | converged h1 _ h3 =>
    have := (part_trial henv h0 h1).2.2
    rw [hl] at this
    rw [this, ht] at h3
    norm_num at h3
  | acceptLast h1 _ _ h4 => omega
  | acceptNext h1 _ _ _ h5 =>
    obtain ⟨a, h3, h4⟩ := part_run henv h5 ((part_trial henv h0 h1).1.adapt _) (forward (by norm_num) h0.lambda).2
    refine ⟨a, ?_, h4⟩
    rw [hl] at h3
    refine lt_of_eq_of_lt ?_ h3
    norm_num

/-- Without the second pose there is one iteration. -/
theorem part_alone {env : Env} (henv : env.Sound) (maxIters : ℕ) {s : FGraphSolve} {r : FGraphSolve.LMResult}
    (hs : s.w = World.run partOps' partWorld₀) (hl : s.lambda = 1e-5) (ht : s.tol = 1e-2)
    (h : FGraphSolve.LMRun env maxIters 0 s r) :
    r.ret = 1 ∧ r.iters = 1 ∧ (r.s.w.nh 0).val = ⟨.pose2d, ![1 / 11, 0, 0]⟩ := by
  have hw : WellPosed s.w := by rw [hs]; exact run_wellPosed rfl part_proper' (fun f _ => part_psd f) fun f _ => part_weight f
  have hr : NoRansac s.w := by rw [hs]; exact part_noRansac _
  have hv : (s.w.nh 0).val = ⟨.pose2d, ![0, 0, 0]⟩ := by rw [hs]; exact part_start _ _
  have hcost : ∀ (w : World) (a : ℝ), Frame s.w w → (w.nh 0).val = ⟨.pose2d, ![a, 0, 0]⟩ → w.cost = 1e-6 * (a - 1) ^ 2 / 2 := by
    intro w a hF ha
    rw [hs] at hF
    have h0 := part_prior'.of_frame hF
    have e : w.cost = ((World.run partOps' partWorld₀).g.factors.map fun f => costTerm (fun n => (w.nh n).val) (w.fh f)).sum := by
      rw [← hF.factors.g]; rfl
    rw [e]
    change costTerm _ (w.fh 0) + 0 = _
    rw [prior_chi2 h0.virt h0.nbrs ha, add_zero]
  have key : ∀ delta s', s.trial env = .ok (delta, s') → (s'.w.nh 0).val = ⟨.pose2d, ![1 / 11, 0, 0]⟩ ∧
      0 ≤ delta ∧ delta < s.tol := by
    intro delta s' h1
    have h2 := prior_trial henv hw hr (by rw [hl]; norm_num) h1 (ω := 1e-6) (p := 1) (f := 0) (by norm_num)
      (by rw [hs]; exact part_prior') hv
    have e : (0 : ℝ) + (1 - 0) * (1e-6 / (1e-6 + s.lambda)) = 1 / 11 := by rw [hl]; norm_num
    rw [e] at h2
    have hd := (FGraphSolve.trial_ok h1).2.2.2.2.2.1
    rw [hcost _ _ (Frame.refl _) hv, hcost _ _ (FGraphSolve.trial_frame h1) h2] at hd
    refine ⟨h2, ?_, ?_⟩
    · rw [hd]; norm_num
    · rw [hd, ht]; norm_num
  cases h with
  | rejectLast h1 h2 _ => exact absurd (key _ _ h1).2.1 (not_le.mpr h2)
  | rejectNext h1 h2 _ _ => exact absurd (key _ _ h1).2.1 (not_le.mpr h2)
  | converged h1 _ _ => exact ⟨rfl, rfl, (key _ _ h1).1⟩
  | acceptLast h1 _ h3 _ => exact absurd (key _ _ h1).2.2 (not_lt.mpr h3)
  | acceptNext h1 _ h3 _ _ => exact absurd (key _ _ h1).2.2 (not_lt.mpr h3)

theorem part_separate (fs : List FRef) : Separate (· = 0) partWorld₀ fs := by
  intro f _ n hn m hm _ _ h0
  by_cases hf : f = 0
  · subst hf
    rw [part_fh0] at hm
    exact List.mem_singleton.mp hm
  · rw [show partWorld₀.fh f = FactorCell.new (.prior2d ![10, 0, 0] ((1 : ℝ) • 1) .quadratic) [1] 0 0 from if_neg hf] at hn
    have : n = 1 := List.mem_singleton.mp hn
    rw [this] at h0
    exact absurd h0 (one_ne_zero (α := ℕ))

theorem part_at : (factorsAt (· = 0) partWorld₀ (addedFactors partOps')).Perm
    (factorsAt (· = 0) partWorld₀ (addedFactors partOps)) := by
  classical
  have h0 : ∃ n ∈ (partWorld₀.fh 0).nbrs, n = 0 ∧ (partWorld₀.nh n).mode ≠ .anchor := by
    rw [part_fh0]
    exact ⟨0, List.mem_singleton.mpr rfl, rfl, fun h => nomatch h⟩
  have h1 : ¬ ∃ n ∈ (partWorld₀.fh 1).nbrs, n = 0 ∧ (partWorld₀.nh n).mode ≠ .anchor := by
    rw [part_fh1]
    rintro ⟨n, hn, rfl, -⟩
    exact absurd (List.mem_singleton.mp hn).symm (one_ne_zero (α := ℕ))
  have e' : addedFactors partOps' = [0] := rfl
  have e : addedFactors partOps = [0, 1] := rfl
  rw [e, e', factorsAt, factorsAt, List.filter_cons_of_pos (by simpa using h0), List.filter_cons_of_pos (by simpa using h0),
    List.filter_cons_of_neg (by simpa using h1)]

/-- Both poses are determined. -/
theorem part_posDef : (infoMatrix (graphTerms (World.run partOps partWorld₀))).PosDef := by
  have hw := run_wellPosed rfl part_proper (fun f _ => part_psd f) fun f _ => part_weight f
  have hrow : ∀ (x : Cols (World.run partOps partWorld₀) → ℝ) (c : Cols (World.run partOps partWorld₀)),
      (infoMatrix (graphTerms (World.run partOps partWorld₀)) *ᵥ x) c = (if c.1.1 = 0 then 1e-6 else 1) * x c := by
    rintro x ⟨⟨n, hn⟩, k⟩
    have hk : (k : ℕ) < 3 := lt_of_lt_of_eq k.2 (congrArg (fun v : NodeVal => v.1.dim) (part_start partOps n))
    rw [infoMatrix_mulVec_quad (part_noRansac _), ← spread_apply x ⟨⟨n, hn⟩, k⟩]
    have hn' := hn
    simp only [part_active, List.mem_cons, List.not_mem_nil, or_false] at hn'
    rw [quadSum_part (S := (· = n)) (F := fun _ => False) _ rfl (fun h => h)]
    rcases hn' with rfl | rfl
    · rw [part_prior0.only]
      refine (prior_quad part_prior0.virt part_prior0.nbrs ⟨k, hk⟩ _).trans ?_
      rw [prior_step (part_start partOps 0), if_pos rfl]
    · rw [part_prior1.only]
      refine (prior_quad part_prior1.virt part_prior1.nbrs ⟨k, hk⟩ _).trans ?_
      rw [prior_step (part_start partOps 1), if_neg (one_ne_zero (α := ℕ))]
  refine Matrix.PosDef.of_dotProduct_mulVec_pos (FGraphSolve.terms_psd hw).isHermitian fun {x} hx => ?_
  rw [star_trivial, dotProduct]
  have h0 : ∀ c : Cols (World.run partOps partWorld₀), (0 : ℝ) < if c.1.1 = 0 then 1e-6 else 1 := by
    intro c; split <;> norm_num
  obtain ⟨c, hc⟩ : ∃ c, x c ≠ 0 := by
    by_contra hcon
    exact hx (funext fun c => by_contra fun h => hcon ⟨c, h⟩)
  refine Finset.sum_pos' (fun d _ => ?_) ⟨c, Finset.mem_univ _, ?_⟩
  · rw [hrow]
    have := h0 d
    nlinarith [mul_self_nonneg (x d)]
  · rw [hrow]
    have := h0 c
    have h2 := mul_self_pos.mpr hc
    nlinarith

end Demo

end Mrob
