import Verif.Lemmas.Growth
import Verif.Lemmas.Demo
import Verif.Lemmas.Statistics
import Verif.Props.Getters

/-!
# C100 and C101: graphs that grow
-/

open Matrix

namespace Mrob

open World Spec

/-- Covariance of component `i` of node `n` and component `j` of node `m`: the entry of the inverse of the information matrix
`L` at their places among the unknowns of the graph. -/
noncomputable def covOf (w : World) {N : ℕ} (L : Matrix (Fin N) (Fin N) ℝ) (n : NRef) (i : ℕ) (m : NRef) (j : ℕ) : ℝ :=
  if h : offset (fun n => (w.nh n).dim) w.g.active n + i < N ∧ offset (fun n => (w.nh n).dim) w.g.active m + j < N then
    L⁻¹ ⟨_, h.1⟩ ⟨_, h.2⟩ else 0

theorem covOf_infoAt {w : World} {N : ℕ} {L : Matrix (Fin N) (Fin N) ℝ} (h : InfoAt w L) (c d : Cols w) :
    covOf w L c.1 c.2 d.1 d.2 = (infoMatrix (graphTerms w))⁻¹ c d := by
  obtain ⟨b, h1, h2⟩ := h
  have hc : offset (fun n => (w.nh n).dim) w.g.active c.1 + c.2 < N := by rw [← h1]; exact (b c).2
  have hd : offset (fun n => (w.nh n).dim) w.g.active d.1 + d.2 < N := by rw [← h1]; exact (b d).2
  rw [covOf, dif_pos ⟨hc, hd⟩, ← h2, inv_submatrix_equiv, submatrix_apply]
  have ec : (⟨_, hc⟩ : Fin N) = b c := Fin.ext (h1 c).symm
  have ed : (⟨_, hd⟩ : Fin N) = b d := Fin.ext (h1 d).symm
  rw [ec, ed]

/-- C100: a node `m` that is seen by a single measurement `f`, which fixes it from the other nodes (the next pose of the
odometry, a new landmark or plane), changes nothing for the others: Gauss-Newton gives the other nodes the same estimates as
without it. -/
theorem C100_gn (w₀ : World) (h₀ : w₀.g = emptyGraph) (ops ops' : List GraphOp) (hp : Proper w₀ ops) (hp' : Proper w₀ ops')
    (m : NRef) (f : FRef) (known : List NRef) (hm : (w₀.nh m).mode = .standard) (hN : (addedNodes ops').Perm (m :: addedNodes ops))
    (hF : (addedFactors ops').Perm (f :: addedFactors ops)) (hfix : Fixes (w₀.fh f).virt (w₀.fh f).nbrs known m)
    (hR : ∀ n ∈ (w₀.fh f).nbrs, ∀ X : SE3, (w₀.nh n).val = ⟨.pose3d, X⟩ → IsRigid X.T)
    (hpsd : ∀ g ∈ f :: addedFactors ops, (w₀.fh g).virt.W.PosSemidef) (hwt : ∀ g ∈ f :: addedFactors ops, 0 ≤ (w₀.fh g).weight)
    (hr : ∀ g ∈ f :: addedFactors ops, (w₀.fh g).virt.robust ≠ .ransac)
    (env env' : Env) (henv : env.Sound) (henv' : env'.Sound) (s s' : FGraphSolve) (hs : s.w = World.run ops w₀)
    (hs' : s'.w = World.run ops' w₀) (hpd : (infoMatrix (graphTerms s.w)).PosDef) (k k' : ℕ) (l l' t t' : ℝ) (s1 s1' : FGraphSolve)
    (h1 : s.solve env .GN k l t = .ok s1) (h1' : s'.solve env' .GN k' l' t' = .ok s1') :
    ∀ n, n ≠ m → (s1'.w.nh n).val = (s1.w.nh n).val := by
  have hmem : ∀ {P : FRef → Prop}, (∀ g ∈ f :: addedFactors ops, P g) → ∀ g ∈ addedFactors ops', P g :=
    fun h g hg => h g (hF.mem_iff.mp hg)
  have hw := run_wellPosed h₀ hp (fun g hg => hpsd g (List.mem_cons_of_mem _ hg)) fun g hg => hwt g (List.mem_cons_of_mem _ hg)
  have hw' := run_wellPosed h₀ hp' (hmem hpsd) (hmem hwt)
  have hr1 := run_noRansac h₀ (ops := ops) fun g hg => hr g (List.mem_cons_of_mem _ hg)
  have hr1' := run_noRansac h₀ (ops := ops') (hmem hr)
  have hl := World.leaf_run h₀ hp hp' hm hN hF hfix hR
  rw [← hs] at hw hr1 hl
  rw [← hs'] at hw' hr1' hl
  exact fun n hn => FGraphSolve.gn_leaf henv henv' hl hw hw' hr1 hr1' hpd h1 h1' hn

/-- C100: when the graph was determined and the information of the further measurement is positive definite, the larger graph is
determined too, `solve(GN)` returns on it, and the covariances of the other nodes, read from the returned information matrices,
are the same as without the further node. -/
theorem C100_covariance (w₀ : World) (h₀ : w₀.g = emptyGraph) (ops ops' : List GraphOp) (hp : Proper w₀ ops) (hp' : Proper w₀ ops')
    (m : NRef) (f : FRef) (known : List NRef) (hm : (w₀.nh m).mode = .standard) (hN : (addedNodes ops').Perm (m :: addedNodes ops))
    (hF : (addedFactors ops').Perm (f :: addedFactors ops)) (hfix : Fixes (w₀.fh f).virt (w₀.fh f).nbrs known m)
    (hR : ∀ n ∈ (w₀.fh f).nbrs, ∀ X : SE3, (w₀.nh n).val = ⟨.pose3d, X⟩ → IsRigid X.T)
    (hpsd : ∀ g ∈ addedFactors ops, (w₀.fh g).virt.W.PosSemidef) (hW : (w₀.fh f).virt.W.PosDef)
    (hwt : ∀ g ∈ f :: addedFactors ops, 0 ≤ (w₀.fh g).weight) (hr : ∀ g ∈ f :: addedFactors ops, (w₀.fh g).virt.robust ≠ .ransac)
    (env : Env) (hcomp : env.Complete) (s s' : FGraphSolve) (hs : s.w = World.run ops w₀)
    (hs' : s'.w = World.run ops' w₀) (hpd : (infoMatrix (graphTerms s.w)).PosDef) (k : ℕ) (l t : ℝ) :
    (infoMatrix (graphTerms s'.w)).PosDef ∧
    ∃ s1 s1', s.solve env .GN k l t = .ok s1 ∧ s'.solve env .GN k l t = .ok s1' ∧
      ∀ a ∈ s.w.g.active, ∀ b ∈ s.w.g.active, ∀ i < (s.w.nh a).dim, ∀ j < (s.w.nh b).dim,
        covOf s'.w s1'.sys.L a i b j = covOf s.w s1.sys.L a i b j := by
  have hmem : ∀ {P : FRef → Prop}, (∀ g ∈ f :: addedFactors ops, P g) → ∀ g ∈ addedFactors ops', P g :=
    fun h g hg => h g (hF.mem_iff.mp hg)
  have hw := run_wellPosed h₀ hp hpsd fun g hg => hwt g (List.mem_cons_of_mem _ hg)
  have hw' := run_wellPosed h₀ hp' (hmem (P := fun g => (w₀.fh g).virt.W.PosSemidef) fun g hg => by
    rcases List.mem_cons.mp hg with rfl | hg
    · exact hW.posSemidef
    · exact hpsd g hg) (hmem hwt)
  have hr1 := run_noRansac h₀ (ops := ops) fun g hg => hr g (List.mem_cons_of_mem _ hg)
  have hr1' := run_noRansac h₀ (ops := ops') (hmem hr)
  have hl := World.leaf_run h₀ hp hp' hm hN hF hfix hR
  rw [← hs] at hw hr1 hl
  rw [← hs'] at hw' hr1' hl
  have hpd' := hl.posDef hr1 hr1' hpd (FGraphSolve.terms_psd hw').isHermitian hW (hr f List.mem_cons_self)
  obtain ⟨s1, h1⟩ := C36_returns env hcomp s hw hpd k l t
  obtain ⟨s1', h1'⟩ := C36_returns env hcomp s' hw' hpd' k l t
  refine ⟨hpd', s1, s1', h1, h1', fun a ha b hb i hi j hj => ?_⟩
  have e1 := covOf_infoAt (C92_gn env s s1 hw k l t h1).1 ⟨⟨a, ha⟩, ⟨i, hi⟩⟩ ⟨⟨b, hb⟩, ⟨j, hj⟩⟩
  have e2 := covOf_infoAt (C92_gn env s' s1' hw' k l t h1').1 (hl.grown.emb ⟨⟨a, ha⟩, ⟨i, hi⟩⟩) (hl.grown.emb ⟨⟨b, hb⟩, ⟨j, hj⟩⟩)
  have e3 := congrFun (congrFun (hl.cov hr1 hr1' hpd hpd') ⟨⟨a, ha⟩, ⟨i, hi⟩⟩) ⟨⟨b, hb⟩, ⟨j, hj⟩⟩
  exact e2.trans (e3.trans e1.symm)

/-- C101: further measurements, also of further nodes, never increase the uncertainty of the nodes that were there before: the
joint covariance of those, read from the information matrices that `solve(GN)` leaves when both graphs are solved from the same
states, does not become larger (in the order of symmetric matrices). -/
theorem C101_covariance (w₀ : World) (h₀ : w₀.g = emptyGraph) (ops ops' : List GraphOp) (hp : Proper w₀ ops) (hp' : Proper w₀ ops')
    (more : List FRef) (hN : ∀ n ∈ addedNodes ops, n ∈ addedNodes ops') (hF : (addedFactors ops').Perm (addedFactors ops ++ more))
    (hpsd : ∀ g ∈ addedFactors ops ++ more, (w₀.fh g).virt.W.PosSemidef) (hwt : ∀ g ∈ addedFactors ops ++ more, 0 ≤ (w₀.fh g).weight)
    (hr : ∀ g ∈ addedFactors ops ++ more, (w₀.fh g).virt.robust ≠ .ransac)
    (env env' : Env) (s s' : FGraphSolve) (hs : s.w = World.run ops w₀) (hs' : s'.w = World.run ops' w₀)
    (hpd : (infoMatrix (graphTerms s.w)).PosDef) (hpd' : (infoMatrix (graphTerms s'.w)).PosDef) (k k' : ℕ) (l l' t t' : ℝ)
    (s1 s1' : FGraphSolve) (h1 : s.solve env .GN k l t = .ok s1) (h1' : s'.solve env' .GN k' l' t' = .ok s1') :
    (Matrix.of fun c d : Cols s.w => covOf s.w s1.sys.L c.1 c.2 d.1 d.2 - covOf s'.w s1'.sys.L c.1 c.2 d.1 d.2).PosSemidef := by
  have hmem : ∀ {P : FRef → Prop}, (∀ g ∈ addedFactors ops ++ more, P g) → ∀ g ∈ addedFactors ops', P g :=
    fun h g hg => h g (hF.mem_iff.mp hg)
  have hw := run_wellPosed h₀ hp (fun g hg => hpsd g (List.mem_append_left _ hg)) fun g hg => hwt g (List.mem_append_left _ hg)
  have hw' := run_wellPosed h₀ hp' (hmem hpsd) (hmem hwt)
  have hr1 := run_noRansac h₀ (ops := ops) fun g hg => hr g (List.mem_append_left _ hg)
  have hr1' := run_noRansac h₀ (ops := ops') (hmem hr)
  have hg := World.grown_run h₀ hp hp' hN hF
  rw [← hs] at hw hr1 hg
  rw [← hs'] at hw' hr1' hg
  have h := hg.cov_le hr1 hr1' (fun c hc => by
    obtain ⟨g, hg', rfl⟩ := List.mem_map.mp hc
    exact hpsd g (List.mem_append_right _ hg')) hpd hpd'
  have e : (Matrix.of fun c d : Cols s.w => covOf s.w s1.sys.L c.1 c.2 d.1 d.2 - covOf s'.w s1'.sys.L c.1 c.2 d.1 d.2) =
      (infoMatrix (graphTerms s.w))⁻¹ - ((infoMatrix (graphTerms s'.w))⁻¹).submatrix hg.emb hg.emb := by
    ext c d
    rw [Matrix.of_apply, covOf_infoAt (C92_gn env s s1 hw k l t h1).1 c d]
    exact congrArg _ (covOf_infoAt (C92_gn env' s' s1' hw' k' l' t' h1').1 (hg.emb c) (hg.emb d))
  rw [e]
  exact h

namespace Demo

/-- A prior on the pose 0, and the pose 1 measured from it. -/
noncomputable def growWorld₀ : World :=
  ⟨fun _ => NodeCell.new .pose2d 0 .standard, fun f => if f = 0 then FactorCell.new (.prior2d ![1, 0, 0] 1 .quadratic) [0] 0 0 else
    FactorCell.new (.rel2d ![2, 0, 0] 1 .quadratic) [0, 1] 0 0, emptyGraph⟩

/-- The graph with the pose 1. -/
def growOps' : List GraphOp := [.addNode 0, .addFactor 0, .addNode 1, .addFactor 1]

theorem grow_zero : growWorld₀.fh 0 = FactorCell.new (.prior2d ![1, 0, 0] 1 .quadratic) [0] 0 0 := by
  rw [growWorld₀]; dsimp only; rw [if_pos rfl]
theorem grow_one : growWorld₀.fh 1 = FactorCell.new (.rel2d ![2, 0, 0] 1 .quadratic) [0, 1] 0 0 := by
  rw [growWorld₀]; dsimp only; rw [if_neg (by change ¬ (1 : ℕ) = 0; decide)]

theorem grow_proper' : Proper growWorld₀ growOps' := by
  refine ⟨?_, ?_, ?_, ?_, ?_, ?_⟩
  · intro op hop n m
    simp [growOps'] at hop
    rcases hop with rfl | rfl | rfl | rfl <;> simp
  · change [(0 : ℕ), 1].Nodup; decide
  · intro n _; simp [growWorld₀, NodeCell.new]
  · intro f hf n hn
    left
    change n ∈ [(0 : ℕ), 1]
    change f ∈ [(0 : ℕ), 1] at hf
    simp only [List.mem_cons, List.not_mem_nil, or_false] at hf
    rcases hf with rfl | rfl
    · rw [grow_zero] at hn
      change n ∈ [(0 : ℕ)] at hn
      exact List.mem_cons.mpr (Or.inl (List.mem_singleton.mp hn))
    · rw [grow_one] at hn
      exact hn
  · intro f hf
    change f ∈ [(0 : ℕ), 1] at hf
    refine List.Nodup.filter _ ?_
    simp only [List.mem_cons, List.not_mem_nil, or_false] at hf
    rcases hf with rfl | rfl
    · rw [grow_zero]; change [(0 : ℕ)].Nodup; decide
    · rw [grow_one]; change [(0 : ℕ), 1].Nodup; decide
  · intro f hf
    change f ∈ [(0 : ℕ), 1] at hf
    simp only [List.mem_cons, List.not_mem_nil, or_false] at hf
    rcases hf with rfl | rfl
    · rw [grow_zero]; rfl
    · rw [grow_one]; rfl

theorem grow_proper : Proper growWorld₀ p3Ops := by
  have h := grow_proper'
  have hF : ∀ f ∈ addedFactors p3Ops, f ∈ addedFactors growOps' := by
    intro f hf
    change f ∈ [(0 : ℕ)] at hf
    change f ∈ [(0 : ℕ), 1]
    exact List.mem_cons.mpr (Or.inl (List.mem_singleton.mp hf))
  refine ⟨?_, ?_, ?_, ?_, fun f hf => h.noLoop f (hF f hf), fun f hf => h.typed f (hF f hf)⟩
  · intro op hop n m
    simp [p3Ops] at hop
    rcases hop with rfl | rfl <;> simp
  · change [(0 : ℕ)].Nodup; decide
  · intro n _; simp [growWorld₀, NodeCell.new]
  · intro f hf n hn
    left
    change n ∈ [(0 : ℕ)]
    change f ∈ [(0 : ℕ)] at hf
    rw [List.mem_singleton] at hf
    subst hf
    rw [grow_zero] at hn
    exact hn

theorem grow_else {f : FRef} (h : ¬ f = 0) : growWorld₀.fh f = FactorCell.new (.rel2d ![2, 0, 0] 1 .quadratic) [0, 1] 0 0 := by
  rw [growWorld₀]; dsimp only; rw [if_neg h]

theorem grow_W (f : FRef) : (growWorld₀.fh f).virt.W.PosDef := by
  by_cases h : f = 0
  · rw [h, grow_zero]; exact Matrix.PosDef.one
  · rw [grow_else h]; exact Matrix.PosDef.one

theorem grow_plain (f : FRef) : 0 ≤ (growWorld₀.fh f).weight ∧ (growWorld₀.fh f).virt.robust ≠ .ransac := by
  by_cases h : f = 0
  · rw [h, grow_zero]; exact ⟨le_refl (0 : ℝ), fun h => nomatch h⟩
  · rw [grow_else h]
    exact ⟨le_refl (0 : ℝ), fun h => nomatch h⟩

theorem grow_fixes : Fixes (growWorld₀.fh 1).virt (growWorld₀.fh 1).nbrs [0] 1 := by
  rw [grow_one]; exact .rel2d

theorem grow_posDef : (infoMatrix (graphTerms (World.run p3Ops growWorld₀))).PosDef := by
  have hw := run_wellPosed rfl grow_proper (fun f _ => (grow_W f).posSemidef) fun f _ => (grow_plain f).1
  refine posDef_of_tied hw (fun f hf n hn X hX => ?_) fun n hn => ?_
  · rw [(run_nh_static p3Ops growWorld₀ n).1] at hX
    exact absurd (congrArg Sigma.fst hX) (fun h => nomatch h)
  · have : n ∈ [(0 : ℕ)] := hn
    rw [List.mem_singleton] at this
    subst this
    refine .measured (f := 0) (known := []) (List.mem_singleton.mpr rfl) ?_ ?_ ?_ (fun _ h => nomatch h)
    · rw [(run_fh_static p3Ops growWorld₀ 0).1]; exact grow_W 0
    · rw [(run_fh_static p3Ops growWorld₀ 0).1]; exact (grow_plain 0).2
    · rw [(run_fh_static p3Ops growWorld₀ 0).1, (run_fh_static p3Ops growWorld₀ 0).2, grow_zero]; exact .prior2d

end Demo

/-- A prior of the pose 0, and then odometry to the pose 1. -/
example : ∃ s1 s1' : FGraphSolve,
    FGraphSolve.solve Env.exact .GN 1 0 0 ⟨World.run Demo.p3Ops Demo.growWorld₀, 0, 0, ⟨0, 0, 0, 0⟩, ⟨0, 0, 0, 0, 0⟩⟩ = .ok s1 ∧
    FGraphSolve.solve Env.exact .GN 1 0 0 ⟨World.run Demo.growOps' Demo.growWorld₀, 0, 0, ⟨0, 0, 0, 0⟩, ⟨0, 0, 0, 0, 0⟩⟩ = .ok s1' ∧
    (s1'.w.nh 0).val = (s1.w.nh 0).val ∧ covOf (World.run Demo.growOps' Demo.growWorld₀) s1'.sys.L 0 0 0 0 =
      covOf (World.run Demo.p3Ops Demo.growWorld₀) s1.sys.L 0 0 0 0 := by
  have hN : (addedNodes Demo.growOps').Perm (1 :: addedNodes Demo.p3Ops) := List.Perm.swap (1 : ℕ) 0 []
  have hF : (addedFactors Demo.growOps').Perm (1 :: addedFactors Demo.p3Ops) := List.Perm.swap (1 : ℕ) 0 []
  have hR : ∀ n ∈ (Demo.growWorld₀.fh 1).nbrs, ∀ X : SE3, (Demo.growWorld₀.nh n).val = ⟨.pose3d, X⟩ → IsRigid X.T :=
    fun n _ X hX => absurd (congrArg Sigma.fst hX) (fun h => nomatch h)
  obtain ⟨-, s1, s1', h1, h1', hc⟩ := C100_covariance Demo.growWorld₀ rfl Demo.p3Ops Demo.growOps' Demo.grow_proper Demo.grow_proper' 1 1 [0] rfl
    hN hF Demo.grow_fixes hR (fun g _ => (Demo.grow_W g).posSemidef) (Demo.grow_W 1) (fun g _ => (Demo.grow_plain g).1)
    (fun g _ => (Demo.grow_plain g).2) Env.exact Env.exact_complete
    ⟨World.run Demo.p3Ops Demo.growWorld₀, 0, 0, ⟨0, 0, 0, 0⟩, ⟨0, 0, 0, 0, 0⟩⟩
    ⟨World.run Demo.growOps' Demo.growWorld₀, 0, 0, ⟨0, 0, 0, 0⟩, ⟨0, 0, 0, 0, 0⟩⟩ rfl rfl Demo.grow_posDef 1 0 0
  refine ⟨s1, s1', h1, h1', ?_, hc 0 (List.mem_singleton.mpr rfl) 0 (List.mem_singleton.mpr rfl) 0 (by exact Nat.succ_pos 2) 0
    (by exact Nat.succ_pos 2)⟩
  exact C100_gn Demo.growWorld₀ rfl Demo.p3Ops Demo.growOps' Demo.grow_proper Demo.grow_proper' 1 1 [0] rfl
    hN hF Demo.grow_fixes hR (fun g _ => (Demo.grow_W g).posSemidef) (fun g _ => (Demo.grow_plain g).1)
    (fun g _ => (Demo.grow_plain g).2) Env.exact Env.exact Env.exact_sound Env.exact_sound
    ⟨World.run Demo.p3Ops Demo.growWorld₀, 0, 0, ⟨0, 0, 0, 0⟩, ⟨0, 0, 0, 0, 0⟩⟩
    ⟨World.run Demo.growOps' Demo.growWorld₀, 0, 0, ⟨0, 0, 0, 0⟩, ⟨0, 0, 0, 0, 0⟩⟩ rfl rfl Demo.grow_posDef 1 1 0 0 0 0 s1 s1' h1 h1'
    0 (by change (0 : ℕ) ≠ 1; decide)

/-- The same two graphs meet the hypotheses of C101. -/
example : (∀ n ∈ addedNodes Demo.p3Ops, n ∈ addedNodes Demo.growOps') ∧
    (addedFactors Demo.growOps').Perm (addedFactors Demo.p3Ops ++ [1]) ∧
    (infoMatrix (graphTerms (World.run Demo.p3Ops Demo.growWorld₀))).PosDef ∧
    (infoMatrix (graphTerms (World.run Demo.growOps' Demo.growWorld₀))).PosDef := by
  have hN : (addedNodes Demo.growOps').Perm (1 :: addedNodes Demo.p3Ops) := List.Perm.swap (1 : ℕ) 0 []
  have hF : (addedFactors Demo.growOps').Perm (1 :: addedFactors Demo.p3Ops) := List.Perm.swap (1 : ℕ) 0 []
  have hR : ∀ n ∈ (Demo.growWorld₀.fh 1).nbrs, ∀ X : SE3, (Demo.growWorld₀.nh n).val = ⟨.pose3d, X⟩ → IsRigid X.T :=
    fun n _ X hX => absurd (congrArg Sigma.fst hX) (fun h => nomatch h)
  exact ⟨fun n hn => hN.mem_iff.mpr (List.mem_cons_of_mem _ hn), List.Perm.refl [(0 : ℕ), 1], Demo.grow_posDef,
    (C100_covariance Demo.growWorld₀ rfl Demo.p3Ops Demo.growOps' Demo.grow_proper Demo.grow_proper' 1 1 [0] rfl
    hN hF Demo.grow_fixes hR (fun g _ => (Demo.grow_W g).posSemidef) (Demo.grow_W 1) (fun g _ => (Demo.grow_plain g).1)
    (fun g _ => (Demo.grow_plain g).2) Env.exact Env.exact_complete
    ⟨World.run Demo.p3Ops Demo.growWorld₀, 0, 0, ⟨0, 0, 0, 0⟩, ⟨0, 0, 0, 0, 0⟩⟩
    ⟨World.run Demo.growOps' Demo.growWorld₀, 0, 0, ⟨0, 0, 0, 0⟩, ⟨0, 0, 0, 0, 0⟩⟩ rfl rfl Demo.grow_posDef 1 0 0).1⟩

end Mrob
