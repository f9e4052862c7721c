import Verif.Lemmas.FGraphPyCost
import Verif.Props.Assembly
import Verif.Props.Solve

/-!
# Properties of the Python interface of the factor graph: C71, C74, C75
-/

open Matrix Spec

namespace Mrob

open World FGraphPy

/-! ### C71 -/

/-- C71: a history of calls in which every factor names nodes created before, of the classes it is meant for and distinct,
and no node is to be marginalised, is never undefined behaviour: either a decomposition fails (NaN), or all calls return; then
the ids returned are the numbers of creation, nodes and factors counted separately, the graph holds exactly the nodes and the
factors created, and `get_estimated_state()` lists the nodes in the order of their ids. -/
theorem C71_legal_partial (robust : Robust) (nh : NRef → NodeCell) (fh : FRef → FactorCell)
    (mem : FRef → (d : ℕ) → (Fin d → ℝ) × (Fin d → ℕ → ℝ)) (cs : List Call) (hl : Legal [] cs) :
    run cs (FGraphPy.new robust nh fh mem) = .nan ∨ ∃ q, run cs (FGraphPy.new robust nh fh mem) = .ok (expectedIds 0 0 cs, q) ∧
      q.s.w.numberNodes = (created cs).length ∧ q.s.w.numberFactors = (factorsOf cs).length ∧
      q.s.w.estimatedState.map Sigma.fst = (created cs).map Prod.fst ∧ Wired q.s.w ∧
      (∀ i c, (factorsOf cs)[i]? = some c → ∃ f, q.s.w.g.factors[i]? = some f ∧ (q.s.w.fh f).id = i ∧
        ((q.s.w.fh f).nbrs.map fun n => (q.s.w.nh n).id).Perm (c.uses.map Prod.fst)) := by
  rcases run_legal cs (PyInv.new robust nh fh mem) (by simp) (by simp) hl with h | ⟨q, h, ha⟩
  · exact .inl h
  · have hi := ha.inv
    simp only [List.nil_append] at hi
    have hfits : ∀ c ∈ factorsOf cs, c.Fits (created cs) := fun c hc => by
      have := legal_fits hl c hc; rwa [List.nil_append] at this
    refine .inr ⟨q, h, by rw [numberNodes, hi.nodes, List.length_range], by rw [numberFactors, hi.factors, List.length_range],
      ?_, hi.wired (legal_created hl) hfits, fun i c hc => ?_⟩
    · rw [estimatedState, List.map_map, hi.nodes]
      refine List.ext_getElem (by simp) fun i h1 h2 => ?_
      simp only [List.getElem_map, List.getElem_range, Function.comp]
      exact (hi.node i _ (List.getElem?_eq_getElem (by simpa using h2))).1
    · have hlt := (List.getElem?_eq_some_iff.mp hc).1
      have hf := hi.factor i c hc
      refine ⟨i, by rw [hi.factors, List.getElem?_range hlt], hf.2.2.1, ?_⟩
      rw [hf.2.1]
      have hc' := hfits c (List.mem_of_getElem? hc)
      have he : c.nbrs.map (fun n => (q.s.w.nh n).id) = c.nbrs := by
        conv_rhs => rw [← List.map_id c.nbrs]
        refine List.map_congr_left fun n hn => ?_
        obtain ⟨u, hu, rfl⟩ := List.mem_map.mp ((PyFactor.nbrs_perm c).mem_iff.mp hn)
        exact hi.ids _ (hi.uses hc' u hu).1
      rw [he]
      exact PyFactor.nbrs_perm c

/-- C71: if moreover the information matrices are positive semidefinite and the graph is only solved by `LM`, all calls of the
history return, whatever robust cost the graph was created with. -/
theorem C71_returns_partial (robust : Robust) (nh : NRef → NodeCell) (fh : FRef → FactorCell)
    (mem : FRef → (d : ℕ) → (Fin d → ℝ) × (Fin d → ℕ → ℝ)) (cs : List Call) (hl : Legal [] cs) (hb : ∀ c ∈ cs, Benign c) :
    ∃ q, run cs (FGraphPy.new robust nh fh mem) = .ok (expectedIds 0 0 cs, q) := by
  rcases run_legal cs (PyInv.new robust nh fh mem) (by simp) (by simp) hl with h | ⟨q, h, -⟩
  · exact absurd h (run_benign cs (PyInv.new robust nh fh mem) (by simp) (by simp) (by simp) hl hb)
  · exact ⟨q, h⟩

example : ∃ q, FGraphPy.run (Demo.history Env.exact) Demo.newGraph =
    .ok ([some 0, some 1, some 2, some 0, some 1, none, none, some 3], q) :=
  C71_returns_partial _ _ _ _ _ (Demo.history_legal _) (by
    intro c hc
    simp only [Demo.history, List.mem_cons, List.not_mem_nil, or_false] at hc
    rcases hc with rfl | rfl | rfl | rfl | rfl | rfl | rfl | rfl
    · trivial
    · trivial
    · trivial
    · exact Matrix.PosSemidef.one
    · exact Matrix.PosSemidef.one
    · trivial
    · exact ⟨rfl, Env.exact_complete⟩
    · trivial)

/-- C71 is false for arbitrary histories: after any legal history, a factor that names a node that does not exist is
undefined behaviour. -/
theorem C71_missing_node_fails (robust : Robust) (nh : NRef → NodeCell) (fh : FRef → FactorCell)
    (mem : FRef → (d : ℕ) → (Fin d → ℝ) × (Fin d → ℕ → ℝ)) (cs : List Call) (hl : Legal [] cs) (c : PyFactor)
    (hc : ∃ u ∈ c.uses, (created cs).length ≤ u.1) (hn : run cs (FGraphPy.new robust nh fh mem) ≠ .nan) :
    run (cs ++ [.factor c]) (FGraphPy.new robust nh fh mem) = .ub := by
  rcases run_legal cs (PyInv.new robust nh fh mem) (by simp) (by simp) hl with h | ⟨q, h, ha⟩
  · exact absurd h hn
  · have hi := ha.inv
    rw [pyRun_append, h, Out.ok_bind]
    simp only [FGraphPy.run, FGraphPy.step, FGraphPy.addFactor]
    rw [construct_invalid hi.nodes c (by simpa using hc)]
    rfl

example : run ([.node .pose2d 0 .standard] ++ [.factor (.prior2d 0 1 1)])
    Demo.newGraph = .ub :=
  C71_missing_node_fails _ _ _ _ [.node .pose2d 0 .standard] ⟨by simp, trivial⟩ _ (by simp [PyFactor.uses, created]) (by
    rw [FGraphPy.run, FGraphPy.step, Out.ok_bind, FGraphPy.run, Out.ok_bind]; simp)

/-- C71 is false for factors that connect a node with itself: the call returns, but after any legal history `solve` is then
undefined behaviour. -/
theorem C71_self_loop_fails (robust : Robust) (nh : NRef → NodeCell) (fh : FRef → FactorCell)
    (mem : FRef → (d : ℕ) → (Fin d → ℝ) × (Fin d → ℕ → ℝ)) (cs : List Call) (hl : Legal [] cs) (n : ℕ) (obs : Vec3) (W : Mat3)
    (hc : (created cs)[n]? = some (.pose2d, .standard)) (hn : run cs (FGraphPy.new robust nh fh mem) ≠ .nan) (env : Env)
    (m : FGraphSolve.Method) (k : ℕ) (l t : ℝ) :
    (∃ r, run (cs ++ [.factor (.rel2d obs n n W false)]) (FGraphPy.new robust nh fh mem) = .ok r) ∧
    run (cs ++ [.factor (.rel2d obs n n W false)] ++ [.solve env m k l t]) (FGraphPy.new robust nh fh mem) = .ub := by
  rcases run_legal cs (PyInv.new robust nh fh mem) (by simp) (by simp) hl with h | ⟨q, h, ha⟩
  · exact absurd h hn
  · have hi := ha.inv
    simp only [List.nil_append] at hi
    obtain ⟨p', h1, h2, -⟩ := hi.addFactor' (c := .rel2d obs n n W false) (by simp [PyFactor.uses, hc])
    have hfits : ∀ c ∈ factorsOf cs ++ [PyFactor.rel2d obs n n W false], ∀ u ∈ c.uses, ∃ m, (created cs)[u.1]? = some (u.2, m) := by
      intro c hc'
      rcases List.mem_append.mp hc' with hc' | hc'
      · have := (legal_fits hl c hc').1; rwa [List.nil_append] at this
      · rw [List.mem_singleton.mp hc']; simp [PyFactor.uses, hc]
    have hrun : run (cs ++ [.factor (.rel2d obs n n W false)]) (FGraphPy.new robust nh fh mem) =
        .ok (expectedIds 0 0 cs ++ [some (factorsOf cs).length], p') := by
      rw [pyRun_append, h, Out.ok_bind]
      simp only [FGraphPy.run, FGraphPy.step, h1, Out.ok_bind]
      rfl
    have hf := h2.factor (factorsOf cs).length (.rel2d obs n n W false) (by simp)
    have hub : p'.s.w.buildAdjacency env = .ub := by
      refine C44_self_loop_fails _ env (h2.typed hfits) (factorsOf cs).length ?_ ?_ n ?_ ?_
      · rw [h2.factors]; simp
      · rw [hf.1]; change 0 < 3; omega
      · rw [(h2.node n _ hc).2.1]; simp
      · rw [hf.2.1]; simp [PyFactor.nbrs]
    refine ⟨⟨_, hrun⟩, ?_⟩
    rw [pyRun_append, hrun, Out.ok_bind]
    simp only [FGraphPy.run, FGraphPy.step]
    rw [solve_ub hub]
    rfl

example (env : Env) : run ([.node .pose2d 0 .standard] ++ [.factor (.rel2d 0 0 0 1 false)] ++ [.solve env .LM 10 1e-5 1e-2])
    Demo.newGraph = .ub :=
  (C71_self_loop_fails _ _ _ _ [.node .pose2d 0 .standard] ⟨by simp, trivial⟩ _ _ _ rfl (by
    rw [FGraphPy.run, FGraphPy.step, Out.ok_bind, FGraphPy.run, Out.ok_bind]; simp) _ _ _ _ _).2

/-- C71 is false for nodes to be marginalised: with a single node of mode `SCHUR_MARGI` and a prior on it, `solve` is undefined
behaviour (the node has no columns in the matrix, but its block is inserted). -/
theorem C71_schur_fails (robust : Robust) (nh : NRef → NodeCell) (fh : FRef → FactorCell)
    (mem : FRef → (d : ℕ) → (Fin d → ℝ) × (Fin d → ℕ → ℝ)) (x obs : Vec3) (W : Mat3) (env : Env)
    (m : FGraphSolve.Method) (k : ℕ) (l t : ℝ) :
    (∃ r, run [.node .pose2d x .schur, .factor (.prior2d obs 0 W), .chi2] (FGraphPy.new robust nh fh mem) = .ok r) ∧
    run [.node .pose2d x .schur, .factor (.prior2d obs 0 W), .solve env m k l t] (FGraphPy.new robust nh fh mem) = .ub := by
  have h0 := ((PyInv.new robust nh fh mem).addNode .pose2d x .schur).1
  set p1 := ((FGraphPy.new robust nh fh mem).addNode .pose2d x .schur).2 with hp1
  obtain ⟨p2, h1, h2, -⟩ := h0.addFactor' (c := .prior2d obs 0 W) (by simp [PyFactor.uses])
  have ht := h2.typed (by simp [PyFactor.uses])
  have hact : p2.s.w.g.active = [] := by
    rw [h2.active]
    have := (h2.node 0 (.pose2d, .schur) (by simp)).2.1
    simp [this]
  have hf := h2.factor 0 (.prior2d obs 0 W) (by simp)
  have hub : p2.s.w.buildAdjacency env = .ub := by
    rw [buildAdjacency, forAll_evalFull _ _ ht, Out.ok_bind]
    set w1 := mapF (·.full p2.s.w.nh) p2.s.w.g.factors p2.s.w with hw1
    have hfm : 0 ∈ p2.s.w.g.factors := by rw [h2.factors]; simp
    have hfh : w1.fh 0 = (p2.s.w.fh 0).full p2.s.w.nh := by rw [hw1, mapF_fh, if_pos hfm]
    have : (SMat.empty w1.g.obsDim w1.g.stateDim).insertAll
        (w1.aIns (colPairs w1.nh 0 w1.g.active) 0 w1.g.factors) = .ub := by
      rcases insertAll_cases (w1.aIns (colPairs w1.nh 0 w1.g.active) 0 w1.g.factors)
        (SMat.empty w1.g.obsDim w1.g.stateDim) with h | h
      · exact h
      · exfalso
        have hin := ((SMat.insertAll_empty_iff _ _ _).mp h).1
        obtain ⟨r, hr⟩ := aIns_sublist w1 (colPairs w1.nh 0 w1.g.active) w1.g.factors 0 hfm 0 (by
          rw [hfh]; change 0 < (p2.s.w.fh 0).virt.dim; rw [hf.1]; change 0 < 3; omega)
        have hn : (w1.fh 0).nbrs = [0] := by rw [hfh]; exact hf.2.1
        have hmode : (w1.nh 0).mode = .schur := (h2.node 0 (.pose2d, .schur) (by simp)).2.1
        rw [hn, List.filter_cons_of_pos (by simp [hmode])] at hr
        have hmem := hr.subset (List.mem_cons_self)
        obtain ⟨e, he, -⟩ := List.mem_map.mp hmem
        have := (hin e he).2
        have hs : w1.g.stateDim = 0 := by
          change p2.s.w.g.stateDim = 0
          rw [h2.stateDim, hact]; rfl
        omega
    rw [this, Out.ub_bind]
  have hrun : ∀ cs, run (.node .pose2d x .schur :: .factor (.prior2d obs 0 W) :: cs) (FGraphPy.new robust nh fh mem) =
      (run cs p2 >>= fun q => .ok (some 0 :: some 0 :: q.1, q.2)) := by
    intro cs
    simp only [FGraphPy.run, FGraphPy.step, Out.ok_bind]
    rw [h1, Out.ok_bind, Out.ok_bind]
    cases FGraphPy.run cs p2 <;> rfl
  refine ⟨?_, ?_⟩
  · rw [hrun]
    simp only [FGraphPy.run, FGraphPy.step]
    rw [chi2Eval_eq _ ht]
    exact ⟨_, rfl⟩
  · rw [hrun]
    simp only [FGraphPy.run, FGraphPy.step]
    rw [solve_ub hub]
    rfl

/-- C71 is false for factors on nodes of another class: a 2D prior on a landmark is accepted, and `chi2()` is then undefined
behaviour. -/
theorem C71_class_fails (robust : Robust) (nh : NRef → NodeCell) (fh : FRef → FactorCell)
    (mem : FRef → (d : ℕ) → (Fin d → ℝ) × (Fin d → ℕ → ℝ)) (x : Vec2) (obs : Vec3) (W : Mat3) :
    (∃ r, run [.node .landmark2d x .standard, .factor (.prior2d obs 0 W)] (FGraphPy.new robust nh fh mem) = .ok r) ∧
    run [.node .landmark2d x .standard, .factor (.prior2d obs 0 W), .chi2] (FGraphPy.new robust nh fh mem) = .ub := by
  have h0 := ((PyInv.new robust nh fh mem).addNode .landmark2d x .standard).1
  set p1 := ((FGraphPy.new robust nh fh mem).addNode .landmark2d x .standard).2 with hp1
  have hkind := (h0.node 0 (.landmark2d, .standard) (by simp)).1
  set cell : FactorCell := .newPrior2d obs 0 W p1.robust (p1.mem 0 3).1 (p1.mem 0 3).2 with hcell
  set w2 := ((p1.s.w.setF 0 cell).addFactor 0).2 with hw2
  have hadd : p1.addFactor (.prior2d obs 0 W) = .ok ((w2.fh 0).id, { p1 with s := { p1.s with w := w2 } }) := by
    rw [FGraphPy.addFactor]
    have hl : p1.s.w.g.factors.length = 0 := by rw [h0.factors]; rfl
    simp only [hl, FGraphPy.construct]
    rw [getNode_range (i := 0) h0.nodes (by simp)]
    rfl
  have hub : w2.chi2Eval = .ub := by
    have hf : w2.g.factors = [0] := by
      rw [hw2, addFactor_factors]
      change p1.s.w.g.factors ++ [0] = _
      rw [h0.factors]; rfl
    rw [chi2Eval, hf, forAll, evalRes, if_neg, Out.ub_bind, Out.ub_bind]
    rw [FactorCell.wellTyped, hw2, addFactor_fh, Function.update_self]
    have hc : (p1.s.w.setF 0 cell).fh 0 = cell := by simp [setF]
    rw [hc]
    intro hk
    have hk' : [(((p1.s.w.setF 0 cell).addFactor 0).2.nh 0).kind] = [NodeKind.pose2d] := hk
    rw [addFactor_nh] at hk'
    change [(p1.s.w.nh 0).kind] = _ at hk'
    rw [hkind] at hk'
    simp at hk'
  refine ⟨?_, ?_⟩
  · simp only [FGraphPy.run, FGraphPy.step, Out.ok_bind]
    rw [hadd]
    exact ⟨_, rfl⟩
  · simp only [FGraphPy.run, FGraphPy.step, Out.ok_bind]
    rw [hadd, Out.ok_bind, Out.ok_bind]
    simp only
    rw [hub]
    rfl

/-! ### C74 -/

/-- C74: after a legal history, `chi2(true)` is the sum over the factors created of half the squared Mahalanobis norms of the
measurement errors, computed from the states that `get_estimated_state()` returns under the ids named in the calls; the roles
of pose and landmark do not depend on which was created first, and neither the robust cost nor the evaluations and
optimisations in between change this.  Restrictions: `Plain`. -/
theorem C74_chi2_partial (robust : Robust) (nh : NRef → NodeCell) (fh : FRef → FactorCell)
    (mem : FRef → (d : ℕ) → (Fin d → ℝ) × (Fin d → ℕ → ℝ)) (cs : List Call) (hl : Legal [] cs) (ids : List (Option ℕ))
    (q : FGraphPy) (h : run cs (FGraphPy.new robust nh fh mem) = .ok (ids, q))
    (hp : ∀ c ∈ factorsOf cs, Plain (fun i => q.s.w.estimatedState[i]?) c) :
    ∃ w', q.s.w.chi2Eval = .ok (((factorsOf cs).map (expectedChi2 fun i => q.s.w.estimatedState[i]?)).sum, w') ∧
      w'.estimatedState = q.s.w.estimatedState := by
  rcases run_legal cs (PyInv.new robust nh fh mem) (by simp) (by simp) hl with h1 | ⟨q', h1, ha⟩
  · rw [h1] at h; simp at h
  · rw [h, Out.ok.injEq, Prod.mk.injEq] at h1
    obtain ⟨-, rfl⟩ := h1
    have hi := ha.inv
    simp only [List.nil_append] at hi
    have hfits : ∀ c ∈ factorsOf cs, c.Fits (created cs) := fun c hc => by
      have := legal_fits hl c hc; rwa [List.nil_append] at this
    refine ⟨mapF (·.resd q.s.w.nh) q.s.w.g.factors q.s.w, ?_, rfl⟩
    rw [hi.chi2 hfits]
    congr 3
    refine List.map_congr_left fun c hc => ?_
    refine chi2_factor q.robust (val := fun n => (q.s.w.nh n).val) ?_ (hp _ hc)
    intro u hu
    have hu' := hi.uses (hfits _ hc) u hu
    refine ⟨?_, NodeCell.val_of_kind hu'.2⟩
    rw [estimatedState, hi.nodes, List.getElem?_map, List.getElem?_range hu'.1]
    rfl

/-- C74 is false for relative measurements from the newer to the older node: the poses are exactly as measured, but `chi2` is
one. -/
theorem C74_reversed_fails : ∃ (x y obs : Vec3) (q : FGraphPy) (w' : World),
    run [.node .pose2d x .standard, .node .pose2d y .standard, .factor (.rel2d obs 1 0 1 false)] Demo.newGraph =
      .ok ([some 0, some 1, some 0], q) ∧ q.s.w.chi2Eval = .ok (1, w') ∧
    expectedChi2 (fun i => q.s.w.estimatedState[i]?) (.rel2d obs 1 0 1 false) = 0 := by
  obtain ⟨q, w', h1, h2, h3, h4, h5⟩ := Demo.run_pair .pose2d .pose2d (![1, 0, Real.pi / 2] : Vec3) (0 : Vec3)
    (.rel2d ![1, 0, Real.pi / 2] 1 0 1 false) ⟨by simp [PyFactor.uses], by simp [PyFactor.uses]⟩ rfl
  refine ⟨_, _, _, q, w', h1, ?_, ?_⟩
  · rw [h3]
    congr 2
    simp only [PyFactor.nbrs, PyFactor.virt]
    simp only [Nat.not_lt_zero, if_false, List.map_cons, List.map_nil, h4, h5]
    change factorChi2 (1 : Mat3) (rel2dRes (-![1, 0, Real.pi / 2]) (![1, 0, Real.pi / 2] : Vec3) (0 : Vec3)) = 1
    have e : rel2dRes (-![1, 0, Real.pi / 2]) (![1, 0, Real.pi / 2] : Vec3) (0 : Vec3) = ![1, 1, 0] := by
      have hw : wrapAngle (0 : ℝ) = 0 := wrapAngle_of_mem (by linarith [Real.pi_pos]) Real.pi_pos
      funext i; fin_cases i <;> simp [rel2dRes, wrap2, hw]
    rw [e]
    simp [factorChi2, dotProduct, Fin.sum_univ_three]
    norm_num
  · simp only [expectedChi2, h2]
    have e : relErr2 principal (![1, 0, Real.pi / 2] : Vec3) (0 : Vec3) (![1, 0, Real.pi / 2] : Vec3) = 0 := by
      have hw : principal (0 : ℝ) = 0 := by
        rw [← C21_wrap]; exact wrapAngle_of_mem (by linarith [Real.pi_pos]) Real.pi_pos
      funext i; fin_cases i <;> simp [relErr2, hw]
    change halfSq (1 : Mat3) (relErr2 principal (![1, 0, Real.pi / 2] : Vec3) (0 : Vec3) (![1, 0, Real.pi / 2] : Vec3)) = 0
    rw [e]; simp [halfSq]

/-- C74 is false for a landmark at the position of the pose: whatever range and bearing were measured, `chi2` is zero. -/
theorem C74_close_fails : ∃ (x : Vec3) (y obs : Vec2) (q : FGraphPy) (w' : World),
    run [.node .pose2d x .standard, .node .landmark2d y .standard, .factor (.land2d obs 0 1 1 false)] Demo.newGraph =
      .ok ([some 0, some 1, some 0], q) ∧ q.s.w.chi2Eval = .ok (0, w') ∧
    50 ≤ expectedChi2 (fun i => q.s.w.estimatedState[i]?) (.land2d obs 0 1 1 false) := by
  obtain ⟨q, w', h1, h2, h3, h4, h5⟩ := Demo.run_pair .pose2d .landmark2d (0 : Vec3) (0 : Vec2)
    (.land2d ![10, 0] 0 1 1 false) ⟨by simp [PyFactor.uses], by simp [PyFactor.uses]⟩ rfl
  refine ⟨_, _, _, q, w', h1, ?_, ?_⟩
  · rw [h3]
    congr 2
    simp only [PyFactor.nbrs, PyFactor.virt]
    simp only [Nat.zero_lt_one, if_true, List.map_cons, List.map_nil, h4, h5]
    change factorChi2 (1 : Matrix (Fin 2) (Fin 2) ℝ) (land2dRes ![10, 0] (0 : Vec3) (0 : Vec2)) = 0
    have e : land2dRes ![10, 0] (0 : Vec3) (0 : Vec2) = 0 := by
      simp only [land2dRes]; rw [if_pos (by norm_num)]
    rw [e]; simp [factorChi2]
  · simp only [expectedChi2, h2]
    change 50 ≤ halfSq (1 : Matrix (Fin 2) (Fin 2) ℝ) (rangeBearingErr principal ![10, 0] (0 : Vec3) (0 : Vec2))
    simp [halfSq, rangeBearingErr, Fin.sum_univ_two]
    nlinarith [mul_self_nonneg (principal 0)]

/-- C74 is false for planes observed with a normal that is not of unit length: the normal is normalised, the offset is not.
The plane `z = -1` seen from the origin, given as `(0, 0, 2, 2)`. -/
theorem C74_plane_fails : ∃ (y obs : Vec4) (q : FGraphPy) (w' : World),
    run [.node .pose3d SE3.default .standard, .node .plane4d y .standard, .factor (.plane4d obs 0 1 1)] Demo.newGraph =
      .ok ([some 0, some 1, some 0], q) ∧ q.s.w.chi2Eval = .ok (1 / 2, w') ∧
    (∀ p : Vec3, p ⬝ᵥ (fun i => y (Sum.inl i)) + y (Sum.inr ()) = 0 ↔ p ⬝ᵥ (fun i => obs (Sum.inl i)) + obs (Sum.inr ()) = 0) := by
  obtain ⟨q, w', h1, h2, h3, h4, h5⟩ := Demo.run_pair .pose3d .plane4d SE3.default (Sum.elim ![0, 0, 1] (fun _ => 1) : Vec4)
    (.plane4d (Sum.elim ![0, 0, 2] (fun _ => 2) : Vec4) 0 1 1) ⟨by simp [PyFactor.uses], by simp [PyFactor.uses]⟩ rfl
  refine ⟨_, _, q, w', h1, ?_, ?_⟩
  · rw [h3]
    congr 2
    simp only [PyFactor.nbrs, PyFactor.virt]
    simp only [Nat.zero_lt_one, if_true, List.map_cons, List.map_nil, h4, h5]
    change factorChi2 (1 : Matrix (Fin 4) (Fin 4) ℝ) (fun i => planeRes (planeObs (Sum.elim ![0, 0, 2] (fun _ => 2) : Vec4))
      SE3.default (normalizeHead (Sum.elim ![0, 0, 1] (fun _ => 1))) (at4 i)) = 1 / 2
    have hn : sqNorm (fun i => (Sum.elim ![0, 0, 1] (fun _ => 1) : Vec4) (Sum.inl i)) = 1 := by
      simp [sqNorm, dotProduct, Fin.sum_univ_three]
    have hn2 : sqNorm (fun i => (Sum.elim ![0, 0, 2] (fun _ => 2) : Vec4) (Sum.inl i)) = 4 := by
      simp [sqNorm, dotProduct, Fin.sum_univ_three]; norm_num
    have e1 : normalizeHead (Sum.elim ![0, 0, 1] (fun _ => 1)) = (Sum.elim ![0, 0, 1] (fun _ => 1) : Vec4) := by
      funext i
      rcases i with i | i
      · rw [normalizeHead_inl _ (by rw [hn]; norm_num), hn, Real.sqrt_one, div_one]
      · rw [normalizeHead_inr]
    have e2 : planeObs (Sum.elim ![0, 0, 2] (fun _ => 2)) = (Sum.elim ![0, 0, 1] (fun _ => 2) : Vec4) := by
      have h4 : Real.sqrt 4 = 2 := by rw [show (4 : ℝ) = 2 ^ 2 by norm_num]; exact Real.sqrt_sq (by norm_num)
      funext i
      rcases i with i | i
      · rw [planeObs, normalizeHead_inl _ (by rw [hn2]; norm_num), hn2, h4]
        fin_cases i <;> simp
      · rw [planeObs, normalizeHead_inr]; rfl
    have e3 : planeLocal SE3.default (Sum.elim ![0, 0, 1] (fun _ => 1) : Vec4) = Sum.elim ![0, 0, 1] (fun _ => 1) := by
      rw [planeLocal, SE3.default, transpose_one, one_mulVec]
    have e4 : planeRes (Sum.elim ![0, 0, 1] (fun _ => 2) : Vec4) SE3.default (Sum.elim ![0, 0, 1] (fun _ => 1) : Vec4) =
        Sum.elim ![0, 0, 0] (fun _ => -1) := by
      rw [planeRes, e3, if_neg (by simp)]
      funext i
      rcases i with i | i
      · fin_cases i <;> simp
      · simp; norm_num
    rw [e1, e2, e4, factorChi2_eq, halfSq]
    simp [Fin.sum_univ_four, at4, Matrix.one_apply]
  · intro p
    simp [dotProduct, Fin.sum_univ_three]
    constructor <;> intro h <;> linarith

/-! ### C75 -/

/-- C75: after a legal history, the state of a node that no factor was told to initialise is the one it was created with if
the node is an anchor, and also if there was no `solve`. -/
theorem C75_kept_partial (robust : Robust) (nh : NRef → NodeCell) (fh : FRef → FactorCell)
    (mem : FRef → (d : ℕ) → (Fin d → ℝ) × (Fin d → ℕ → ℝ)) (cs : List Call) (hl : Legal [] cs) (ids : List (Option ℕ))
    (q : FGraphPy) (h : run cs (FGraphPy.new robust nh fh mem) = .ok (ids, q)) (i : ℕ) (k : NodeKind × Mode) (v : NodeVal)
    (hk : (created cs)[i]? = some k) (hv : (initial cs)[i]? = some v) (hm : k.2 = .anchor ∨ NoSolve cs)
    (ht : ∀ c ∈ factorsOf cs, c.target ≠ some i) : q.s.w.estimatedState[i]? = some v := by
  rcases run_legal cs (PyInv.new robust nh fh mem) (by simp) (by simp) hl with h1 | ⟨q', h1, ha⟩
  · rw [h1] at h; simp at h
  · rw [h, Out.ok.injEq, Prod.mk.injEq] at h1
    obtain ⟨-, rfl⟩ := h1
    have := ha.fresh i k v hk hv hm (by simpa using ht)
    have hi := ha.inv
    simp only [List.nil_append] at hi
    rw [estimatedState, hi.nodes, List.getElem?_map, List.getElem?_range (List.getElem?_eq_some_iff.mp hk).1]
    simpa using this

/-- C75: after a legal history, `add_factor_*` returns the next factor id and changes no state except that of the node it is
told to initialise (odometry always initialises its target), which becomes the one predicted from the measurement and the
other node.  Restrictions: `Unrotated`. -/
theorem C75_add_factor_partial (robust : Robust) (nh : NRef → NodeCell) (fh : FRef → FactorCell)
    (mem : FRef → (d : ℕ) → (Fin d → ℝ) × (Fin d → ℕ → ℝ)) (cs : List Call) (hl : Legal [] cs) (ids : List (Option ℕ))
    (q : FGraphPy) (h : run cs (FGraphPy.new robust nh fh mem) = .ok (ids, q)) (c : PyFactor) (hc : c.Fits (created cs))
    (hu : Unrotated (fun i => q.s.w.estimatedState[i]?) c) :
    ∃ q', run (cs ++ [.factor c]) (FGraphPy.new robust nh fh mem) = .ok (ids ++ [some (factorsOf cs).length], q') ∧
      q'.s.w.estimatedState = match predicted (fun i => q.s.w.estimatedState[i]?) c with
        | none => q.s.w.estimatedState
        | some (t, v) => q.s.w.estimatedState.set t v := by
  rcases run_legal cs (PyInv.new robust nh fh mem) (by simp) (by simp) hl with h1 | ⟨q', h1, ha⟩
  · rw [h1] at h; simp at h
  rw [h, Out.ok.injEq, Prod.mk.injEq] at h1
  obtain ⟨-, rfl⟩ := h1
  have hi := ha.inv
  simp only [List.nil_append] at hi
  obtain ⟨p, e1, i1, hsame, -, cell, w, hcon, hv⟩ := hi.addFactor hc
  refine ⟨p, ?_, ?_⟩
  · rw [pyRun_append, h, Out.ok_bind]
    simp only [FGraphPy.run, FGraphPy.step]
    rw [e1]
    rfl
  have hst : ∀ i < (created cs).length, q.s.w.estimatedState[i]? = some (q.s.w.nh i).val := fun i h => by
    rw [estimatedState, hi.nodes, List.getElem?_map, List.getElem?_range h]; rfl
  have hlen : q.s.w.estimatedState.length = (created cs).length := by simp [estimatedState, hi.nodes]
  have hval : ∀ i < (created cs).length, p.s.w.estimatedState[i]? = some (p.s.w.nh i).val := fun i h => by
    rw [estimatedState, i1.nodes, List.getElem?_map, List.getElem?_range h]; rfl
  have hlen' : p.s.w.estimatedState.length = (created cs).length := by simp [estimatedState, i1.nodes]
  have hnone : c.target = none → p.s.w.estimatedState = q.s.w.estimatedState := by
    intro ht
    refine List.ext_getElem? fun i => ?_
    by_cases hlt : i < (created cs).length
    · rw [hst i hlt, hval i hlt, hsame i (by rw [ht]; simp)]
    · rw [List.getElem?_eq_none (by omega), List.getElem?_eq_none (by omega)]
  have hsome : ∀ t v, c.target = some t → t < (created cs).length → (w.nh t).val = v →
      p.s.w.estimatedState = q.s.w.estimatedState.set t v := by
    intro t v ht hlt hw
    refine List.ext_getElem? fun i => ?_
    by_cases hi' : i < (created cs).length
    · by_cases hit : i = t
      · subst hit
        rw [hval i hi', hv, hw, List.getElem?_set_self (by omega)]
      · rw [hval i hi', hsame i (by rw [ht]; simpa using Ne.symm hit), List.getElem?_set_ne (Ne.symm hit), hst i hi']
    · rw [List.getElem?_eq_none (by omega), List.getElem?_eq_none (by rw [List.length_set]; omega)]
  have huses := hi.uses hc
  cases c with
  | prior2d obs n W => exact hnone rfl
  | prior3d obs n W => exact hnone rfl
  | land3d obs o t W ini => exact hnone rfl
  | plane4d obs o t W => exact hnone rfl
  | p2plane px py ny n W => exact hnone rfl
  | rel2d obs o t W upd =>
    cases upd with
    | false => exact hnone rfl
    | true =>
      have ho := huses (o, .pose2d) (by simp [PyFactor.uses])
      have ht := huses (t, .pose2d) (by simp [PyFactor.uses])
      obtain ⟨x, hx⟩ := NodeCell.val_of_kind ho.2
      obtain ⟨y, hy⟩ := NodeCell.val_of_kind ht.2
      have hx0 := (hu rfl).2 x (by simp only; rw [hst o ho.1, hx])
      have hlt := (hu rfl).1
      rw [FGraphPy.construct, getNode_range hi.nodes ho.1, Out.ok_bind, getNode_range hi.nodes ht.1, Out.ok_bind] at hcon
      simp only [if_true, initRel2d, pose2d?_of_val hx, pose2d?_of_val hy, Out.ok_bind] at hcon
      have hw : w = _ := (congrArg Prod.snd (Out.ok.inj hcon)).symm
      simp only [predicted, hst o ho.1, hx]
      refine hsome t _ rfl ht.1 ?_
      rw [hw]
      change ((q.s.w.setN t _).nh t).val = _
      simp only [setN, Function.update_self]
      rw [update_pose2d hy, hi.ids o ho.1, hi.ids t ht.1, Rel2d.new, if_pos hlt]
      congr 1
      funext i
      fin_cases i <;> simp [wrap2, C21_wrap, hx0]
  | odom obs o t W =>
    have ho := huses (o, .pose2d) (by simp [PyFactor.uses])
    have ht := huses (t, .pose2d) (by simp [PyFactor.uses])
    obtain ⟨x, hx⟩ := NodeCell.val_of_kind ho.2
    obtain ⟨y, hy⟩ := NodeCell.val_of_kind ht.2
    have hlt : o < t := hu
    rw [FGraphPy.construct, getNode_range hi.nodes ho.1, Out.ok_bind, getNode_range hi.nodes ht.1, Out.ok_bind] at hcon
    simp only [initOdom, pose2d?_of_val hx, pose2d?_of_val hy, Out.ok_bind] at hcon
    have hw : w = _ := (congrArg Prod.snd (Out.ok.inj hcon)).symm
    simp only [predicted, hst o ho.1, hx]
    refine hsome t _ rfl ht.1 ?_
    rw [hw]
    change ((q.s.w.setN t _).nh t).val = _
    simp only [setN, Function.update_self]
    rw [update_pose2d hy, hi.ids o ho.1, hi.ids t ht.1, Rel2d.new, if_pos hlt]
    have e : (y : Vec3) + (odomPredict x obs - y) = odomPredict x obs := add_sub_cancel _ _
    rw [e]
    congr 1
    funext i
    fin_cases i <;> simp [wrap2, C21_wrap, odomPredict]
  | rel3d obs o t W upd =>
    cases upd with
    | false => exact hnone rfl
    | true =>
      have ho := huses (o, .pose3d) (by simp [PyFactor.uses])
      have ht := huses (t, .pose3d) (by simp [PyFactor.uses])
      obtain ⟨x, hx⟩ := NodeCell.val_of_kind ho.2
      obtain ⟨d, hd, hdv⟩ := setVal_ok ht.2 (SE3.mul x (Rel3d.new obs (q.s.w.nh o).id (q.s.w.nh t).id).Tobs)
      rw [FGraphPy.construct, getNode_range hi.nodes ho.1, Out.ok_bind, getNode_range hi.nodes ht.1, Out.ok_bind] at hcon
      simp only [if_true, initRel3d, pose3d?_of_val hx] at hcon
      rw [hd] at hcon
      simp only [Out.ok_bind] at hcon
      have hw : w = _ := (congrArg Prod.snd (Out.ok.inj hcon)).symm
      simp only [predicted, hst o ho.1, hx]
      refine hsome t _ rfl ht.1 ?_
      rw [hw]
      change ((q.s.w.setN t d).nh t).val = _
      simp only [setN, Function.update_self]
      rw [hdv]
      have e : (Rel3d.new obs (q.s.w.nh o).id (q.s.w.nh t).id).Tobs = obs := by rw [Rel3d.new]; split <;> rfl
      rw [e]
      rfl
  | land2d obs o t W ini =>
    cases ini with
    | false => exact hnone rfl
    | true =>
      have ho := huses (o, .pose2d) (by simp [PyFactor.uses])
      have ht := huses (t, .landmark2d) (by simp [PyFactor.uses])
      obtain ⟨x, hx⟩ := NodeCell.val_of_kind ho.2
      obtain ⟨d, hd, hdv⟩ := setVal_ok ht.2 (land2dInit obs x)
      rw [FGraphPy.construct, getNode_range hi.nodes ho.1, Out.ok_bind, getNode_range hi.nodes ht.1, Out.ok_bind] at hcon
      simp only [if_true, initLand2d, pose2d?_of_val hx] at hcon
      rw [hd] at hcon
      simp only [Out.ok_bind] at hcon
      have hw : w = _ := (congrArg Prod.snd (Out.ok.inj hcon)).symm
      simp only [predicted, hst o ho.1, hx]
      refine hsome t _ rfl ht.1 ?_
      rw [hw]
      change ((q.s.w.setN t d).nh t).val = _
      simp only [setN, Function.update_self]
      rw [hdv]
      congr 1
      rw [add_comm (x 2)]
      rfl

/-- C75 is false for anchors: `add_factor_2poses_2d_odom` sets the state of its target even if it is an anchor. -/
theorem C75_odom_fails (robust : Robust) (nh : NRef → NodeCell) (fh : FRef → FactorCell)
    (mem : FRef → (d : ℕ) → (Fin d → ℝ) × (Fin d → ℕ → ℝ)) : ∃ (x y obs : Vec3) (q : FGraphPy),
    run [.node .pose2d x .standard, .node .pose2d y .anchor, .factor (.odom obs 0 1 1)] (FGraphPy.new robust nh fh mem) =
      .ok ([some 0, some 1, some 0], q) ∧ q.s.w.estimatedState[1]? ≠ some ⟨.pose2d, y⟩ := by
  have hl : Legal [] [.node .pose2d (0 : Vec3) .standard, .node .pose2d (0 : Vec3) .anchor] := ⟨by simp, by simp, trivial⟩
  obtain ⟨q, h⟩ := C71_returns_partial robust nh fh mem _ hl (by
    intro c hc
    simp only [List.mem_cons, List.not_mem_nil, or_false] at hc
    rcases hc with rfl | rfl <;> trivial)
  have hns : NoSolve [.node .pose2d (0 : Vec3) .standard, .node .pose2d (0 : Vec3) .anchor] := by
    intro d hd env m k l t
    simp only [List.mem_cons, List.not_mem_nil, or_false] at hd
    rcases hd with rfl | rfl <;> simp
  have h0 := C75_kept_partial robust nh fh mem _ hl _ _ h 0 _ _ rfl rfl (.inr hns) (by simp [factorsOf])
  have h1 := C75_kept_partial robust nh fh mem _ hl _ _ h 1 _ _ rfl rfl (.inr hns) (by simp [factorsOf])
  obtain ⟨q', h2, h3⟩ := C75_add_factor_partial robust nh fh mem _ hl _ _ h (.odom ![0, 1, 0] 0 1 1)
    ⟨by simp [PyFactor.uses, created], by simp [PyFactor.uses]⟩ Nat.zero_lt_one
  refine ⟨0, 0, ![0, 1, 0], q', h2, ?_⟩
  simp only [predicted, h0] at h3
  rw [h3, List.getElem?_set_self (List.getElem?_eq_some_iff.mp h1).1]
  intro he
  simp only [Option.some.injEq, Sigma.mk.injEq, heq_eq_eq, true_and] at he
  have := congrFun he 0
  simp [NodeKind.construct] at this

/-- C75 is false for relative planar measurements from a pose that is turned: the target is initialised without turning the
measurement. -/
theorem C75_rel2d_fails (robust : Robust) (nh : NRef → NodeCell) (fh : FRef → FactorCell)
    (mem : FRef → (d : ℕ) → (Fin d → ℝ) × (Fin d → ℕ → ℝ)) : ∃ (x y obs : Vec3) (q : FGraphPy),
    run [.node .pose2d x .standard, .node .pose2d y .standard, .factor (.rel2d obs 0 1 1 true)] (FGraphPy.new robust nh fh mem) =
      .ok ([some 0, some 1, some 0], q) ∧
    q.s.w.estimatedState[1]? ≠ (predicted (fun i => ([⟨.pose2d, x⟩, ⟨.pose2d, y⟩] : List NodeVal)[i]?)
      (.rel2d obs 0 1 1 true)).map Prod.snd := by
  set cs : List Call := [.node .pose2d (![0, 0, Real.pi / 2] : Vec3) .standard, .node .pose2d (0 : Vec3) .standard] with hcs
  have hl : Legal [] cs := ⟨by simp, by simp, trivial⟩
  have hns : NoSolve cs := by
    intro d hd env m k l t
    simp only [hcs, List.mem_cons, List.not_mem_nil, or_false] at hd
    rcases hd with rfl | rfl <;> simp
  rcases run_legal cs (PyInv.new robust nh fh mem) (by simp) (by simp) hl with h | ⟨q, h, ha⟩
  · exfalso
    rw [hcs] at h
    simp only [FGraphPy.run, FGraphPy.step, Out.ok_bind] at h
    exact absurd h (by simp)
  have hi : PyInv q [(.pose2d, .standard), (.pose2d, .standard)] [] := ha.inv
  have v0 : (q.s.w.nh 0).val = ⟨.pose2d, (![0, 0, Real.pi / 2] : Vec3)⟩ :=
    ha.fresh 0 _ _ rfl rfl (.inr hns) (by simp [hcs, factorsOf])
  have v1 : (q.s.w.nh 1).val = ⟨.pose2d, (0 : Vec3)⟩ := ha.fresh 1 _ _ rfl rfl (.inr hns) (by simp [hcs, factorsOf])
  obtain ⟨p, e3, i3, -, -, cell, w, hcon, hv⟩ := hi.addFactor (c := .rel2d ![1, 0, 0] 0 1 1 true)
    ⟨by simp [PyFactor.uses], by simp [PyFactor.uses]⟩
  refine ⟨![0, 0, Real.pi / 2], 0, ![1, 0, 0], p, ?_, ?_⟩
  · refine (pyRun_append cs [.factor (.rel2d ![1, 0, 0] 0 1 1 true)] (FGraphPy.new robust nh fh mem)).trans ?_
    rw [h, Out.ok_bind]
    simp only [FGraphPy.run, FGraphPy.step]
    rw [e3]
    rfl
  · rw [FGraphPy.construct, getNode_range (i := 0) hi.nodes (by simp), Out.ok_bind,
      getNode_range (i := 1) hi.nodes (by simp), Out.ok_bind] at hcon
    simp only [if_true, initRel2d, pose2d?_of_val v0, pose2d?_of_val v1, Out.ok_bind] at hcon
    have hw : w = _ := (congrArg Prod.snd (Out.ok.inj hcon)).symm
    rw [estimatedState, i3.nodes, List.getElem?_map, List.getElem?_range (by simp)]
    change some (p.s.w.nh 1).val ≠ _
    rw [hv, hw]
    change some ((q.s.w.setN 1 _).nh 1).val ≠ _
    simp only [setN, Function.update_self]
    rw [update_pose2d v1, hi.ids 0 (by simp), hi.ids 1 (by simp), Rel2d.new, if_pos Nat.zero_lt_one]
    intro he
    simp only [predicted, List.getElem?_cons_zero, Option.map_some, Option.some.injEq, Sigma.mk.injEq, heq_eq_eq,
      true_and] at he
    have := congrFun he 0
    simp [wrap2] at this

/-- A landmark created before the pose that observes it: all hypotheses of C74 and C75 are met, and `chi2` is that of an error
of three metres in the range. -/
example : ∃ q w', run [.node .landmark2d (![2, 0] : Vec2) .standard, .node .pose2d (0 : Vec3) .standard,
      .factor (.land2d ![5, 0] 1 0 1 false)] Demo.newGraph = .ok ([some 0, some 1, some 0], q) ∧
    q.s.w.chi2Eval = .ok (9 / 2, w') := by
  set cs : List Call := [.node .landmark2d (![2, 0] : Vec2) .standard, .node .pose2d (0 : Vec3) .standard,
    .factor (.land2d ![5, 0] 1 0 1 false)] with hcs
  have hl : Legal [] cs := ⟨by simp, by simp, ⟨by simp [PyFactor.uses], by simp [PyFactor.uses]⟩, trivial⟩
  have hns : NoSolve cs := by
    intro d hd env m k l t
    simp only [hcs, List.mem_cons, List.not_mem_nil, or_false] at hd
    rcases hd with rfl | rfl | rfl <;> simp
  obtain ⟨q, h⟩ := C71_returns_partial .huber (fun _ => NodeCell.new .pose2d 0 .anchor)
    (fun _ => FactorCell.new (.prior2d 0 1 .quadratic) [] 0 0) (fun _ _ => (0, 0)) cs hl (by
    intro c hc
    simp only [hcs, List.mem_cons, List.not_mem_nil, or_false] at hc
    rcases hc with rfl | rfl | rfl
    · trivial
    · trivial
    · exact Matrix.PosSemidef.one)
  have h0 : q.s.w.estimatedState[0]? = some ⟨.landmark2d, (![2, 0] : Vec2)⟩ :=
    C75_kept_partial _ _ _ _ cs hl _ _ h 0 _ _ rfl rfl (.inr hns) (by simp [hcs, factorsOf, PyFactor.target])
  have h1 : q.s.w.estimatedState[1]? = some ⟨.pose2d, (0 : Vec3)⟩ :=
    C75_kept_partial _ _ _ _ cs hl _ _ h 1 _ _ rfl rfl (.inr hns) (by simp [hcs, factorsOf, PyFactor.target])
  obtain ⟨w', h2, -⟩ := C74_chi2_partial _ _ _ _ cs hl _ _ h (by
    intro c hc
    rw [show c = .land2d ![5, 0] 1 0 1 false by simpa [hcs, factorsOf] using hc]
    intro x y hx hy
    simp only [h0, h1, Option.some.injEq, Sigma.mk.injEq, heq_eq_eq, true_and] at hx hy
    rw [← hx, ← hy]
    simp
    norm_num)
  refine ⟨q, w', h, ?_⟩
  rw [h2]
  congr 2
  simp only [hcs, factorsOf, List.map_cons, List.map_nil, List.sum_cons, List.sum_nil, add_zero, expectedChi2, h0, h1]
  have hw : principal (0 : ℝ) = 0 := by
    rw [← C21_wrap]; exact wrapAngle_of_mem (by linarith [Real.pi_pos]) Real.pi_pos
  have ha : Complex.arg ⟨2, 0⟩ = 0 := by
    have : (⟨2, 0⟩ : ℂ) = ((2 : ℝ) : ℂ) := rfl
    rw [this]; exact Complex.arg_ofReal_of_nonneg (by norm_num)
  simp [halfSq, rangeBearingErr, Fin.sum_univ_two, ha, hw, Matrix.one_apply]
  norm_num

end Mrob
