import Verif.Lemmas.Demo

/-!
# C34, C43, C44: assembly of the linear problem
-/

open Matrix

namespace Mrob

open World

/-! ### C44 -/

/-- C44, dimensions: with no `set_node_mode`, the loop that numbers the columns (`N_`) ends exactly at `stateDim_`. -/
theorem C44_state_dim (w₀ : World) (h₀ : w₀.g = emptyGraph) (ops : List GraphOp) (hno : NoSetMode ops) :
    let w := World.run ops w₀
    (w.g.active.map fun n => (w.nh n).dim).sum = w.g.stateDim := by
  intro w
  have h1 : w.g.stateDim = _ := (C32_state_dim w₀ h₀ ops).2 hno
  have h2 : w.g.active = _ := run_active ops hno w₀
  rw [h1, h2, h₀]
  simp only [emptyGraph, List.nil_append]
  congr 2
  apply List.filter_congr
  intro n _
  rw [run_mode ops hno]

/-- C44: every proper history leads to a graph whose bookkeeping is consistent. -/
theorem C44_wired_partial (w₀ : World) (h₀ : w₀.g = emptyGraph) (ops : List GraphOp) (hp : Proper w₀ ops) :
    Wired (World.run ops w₀) := by
  have hact : (World.run ops w₀).g.active = (addedNodes ops).filter fun n => (w₀.nh n).mode = .standard := by
    rw [run_active ops hp.noSetMode, h₀]; rfl
  have hfac : (World.run ops w₀).g.factors = addedFactors ops := by rw [run_factors, h₀]; rfl
  have hmode := run_mode ops hp.noSetMode w₀
  have hnb : ∀ f, ((World.run ops w₀).fh f).nbrs = (w₀.fh f).nbrs := fun f => (run_fh_static ops w₀ f).2
  have hvirt : ∀ f, ((World.run ops w₀).fh f).virt = (w₀.fh f).virt := fun f => (run_fh_static ops w₀ f).1
  constructor
  · rw [hact]; exact hp.nodup.filter _
  · intro a ha b hb hid
    rw [hact, List.mem_filter] at ha hb
    obtain ⟨i, hi⟩ := List.mem_iff_getElem?.mp ha.1
    obtain ⟨j, hj⟩ := List.mem_iff_getElem?.mp hb.1
    rw [run_node_id ops w₀ hp.nodup i a hi, run_node_id ops w₀ hp.nodup j b hj] at hid
    obtain rfl : i = j := by omega
    rw [hi] at hj
    exact Option.some.inj hj
  · intro a ha
    rw [hact, List.mem_filter] at ha
    rw [hmode, of_decide_eq_true ha.2]
    simp
  · intro f hf n hn hm
    rw [hfac] at hf
    rw [hnb] at hn
    rw [hmode] at hm
    rcases hp.registered f hf n hn with h | h
    · rw [hact, List.mem_filter]
      refine ⟨h, decide_eq_true ?_⟩
      have := hp.noSchur n h
      revert this hm
      cases (w₀.nh n).mode <;> simp
    · exact absurd h hm
  · intro f hf
    rw [hfac] at hf
    rw [hnb]
    simp only [hmode]
    exact hp.noLoop f hf
  · intro f hf
    rw [hfac] at hf
    have := hp.typed f hf
    rw [FactorCell.wellTyped] at this ⊢
    rw [hnb, hvirt, ← this]
    exact List.map_congr_left fun n _ => run_kind ops w₀ n
  · exact (C44_state_dim w₀ h₀ ops hp.noSetMode).symm
  · have h1 : (World.run ops w₀).g.obsDim = _ := C32_obs_dim w₀ h₀ ops
    rw [h1, hfac]
    exact ((addedFactors_sublist ops).map _).sum_le_sum (by simp)

/-- C44: the assembly of a consistent graph never is undefined behaviour, whatever the numbers; it ends normally exactly
when no robust weight is computed from a negative `chi2`, in particular with positive semidefinite information matrices. -/
theorem C44_assembly_partial (w : World) (hw : Wired w) (env : Env) :
    w.buildAdjacency env ≠ .ub ∧
    ((∃ r, w.buildAdjacency env = .ok r) ↔ ∀ f ∈ w.g.factors, ((w.fh f).full w.nh).weightable) ∧
    ((∀ f ∈ w.g.factors, (w.fh f).virt.W.PosSemidef) → ∃ r, w.buildAdjacency env = .ok r) := by
  have hpsd : (∀ f ∈ w.g.factors, (w.fh f).virt.W.PosSemidef) →
      ∀ f ∈ w.g.factors, ((w.fh f).full w.nh).weightable := by
    intro h f hf hc
    have h1 := (C29_factor (w.fh f).virt.W ((w.fh f).virt.res ((w.fh f).vals w.nh))).1 (h f hf)
    exact absurd hc.1 (not_lt.mpr h1)
  by_cases hwt : ∀ f ∈ w.g.factors, ((w.fh f).full w.nh).weightable
  · have h := buildAdjacency_wired hw hwt env
    exact ⟨by rw [h]; simp, ⟨fun _ => hwt, fun _ => ⟨_, h⟩⟩, fun _ => ⟨_, h⟩⟩
  · have h := buildAdjacency_nan hw hwt env
    refine ⟨by rw [h]; simp, ⟨fun ⟨r, hr⟩ => ?_, fun hc => absurd hc hwt⟩, fun hc => absurd (hpsd hc) hwt⟩
    rw [h] at hr
    simp at hr

/-- C44 is false in general: a factor (of positive dimension) that connects a non-anchor node with itself makes the assembly
insert an entry twice, which is undefined behaviour.  The API accepts such factors. -/
theorem C44_self_loop_fails (w : World) (env : Env) (ht : ∀ f ∈ w.g.factors, (w.fh f).wellTyped w.nh) (f : FRef)
    (hf : f ∈ w.g.factors) (hd : 0 < (w.fh f).virt.dim) (n : NRef) (hn : (w.nh n).mode ≠ .anchor)
    (hl : [n, n].Sublist (w.fh f).nbrs) : w.buildAdjacency env = .ub := by
  rw [buildAdjacency, forAll_evalFull _ _ ht, Out.ok_bind]
  set w1 := mapF (·.full w.nh) w.g.factors w with hw1
  have hfh : w1.fh f = (w.fh f).full w.nh := by rw [hw1, mapF_fh, if_pos hf]
  have hub : (SMat.empty w1.g.obsDim w1.g.stateDim).insertAll
      (w1.aIns (colPairs w1.nh 0 w1.g.active) 0 w1.g.factors) = .ub := by
    rcases insertAll_cases (w1.aIns (colPairs w1.nh 0 w1.g.active) 0 w1.g.factors)
      (SMat.empty w1.g.obsDim w1.g.stateDim) with h | h
    · exact h
    · exfalso
      have hnd := ((SMat.insertAll_empty_iff _ _ _).mp h).2
      obtain ⟨r, hr⟩ := aIns_sublist w1 (colPairs w1.nh 0 w1.g.active) w1.g.factors f hf 0 (by rw [hfh]; exact hd)
      have h2 := (hl.filter fun n => decide ((w.nh n).mode ≠ .anchor)).map
        fun n => (r, colOf (colPairs w1.nh 0 w1.g.active) (w1.nh n).id)
      rw [List.filter_cons_of_pos (by simpa using hn), List.filter_cons_of_pos (by simpa using hn),
        List.filter_nil] at h2
      rw [hfh] at hr
      exact List.nodup_iff_sublist.mp hnd _ (h2.trans hr)
  rw [hub, Out.ub_bind]

/-- The graph with two pose nodes, one of them an anchor, and two factors. -/
example : Wired (World.run Demo.ops (Demo.world ![1, 2, 3] ![0, 1, 0] .huber)) :=
  C44_wired_partial _ rfl _ (Demo.proper _ _ _)

/-- A relative factor between a node and itself, as the API accepts it. -/
example (env : Env) : (World.run [.addNode 0, .addFactor 0]
    ⟨fun _ => NodeCell.new .pose2d 0 .standard, fun _ => FactorCell.new (.rel2d 0 1 .quadratic) [0, 0] 0 0,
      emptyGraph⟩).buildAdjacency env = .ub :=
  C44_self_loop_fails _ env (by
      intro f hf
      have : f = 0 := by simpa using (show f ∈ [0] from hf)
      subst this; rfl) 0 (by exact List.mem_singleton.mpr rfl) (by change 0 < 3; omega) 0 (by change Mode.standard ≠ _; simp)
    (List.Sublist.refl _)

/-- C44 and C34 are false for a factor whose node is not in the graph: assembly ends normally, but the contribution of the
factor is added to the columns of the node with id 0, to which the factor is not connected. -/
theorem C44_unregistered_fails (env : Env) : ∃ (w₀ : World) (ops : List GraphOp), w₀.g = emptyGraph ∧
    (∀ f ∈ (World.run ops w₀).g.factors, ∀ n ∈ ((World.run ops w₀).fh f).nbrs, n ∉ (World.run ops w₀).g.nodes) ∧
    ∃ w' a, (World.run ops w₀).buildAdjacency env = .ok (w', a) ∧ a.L ≠ 0 := by
  refine ⟨⟨fun _ => NodeCell.new .pose2d 0 .standard, fun _ => FactorCell.new (.prior2d 0 1 .quadratic) [1] 0 0,
    emptyGraph⟩, [.addNode 0, .addFactor 0], rfl, ?_, ?_⟩
  · intro f hf n hn
    have h : f = 0 := by simpa using (show f ∈ [0] from hf)
    subst h
    have h2 : n = 1 := by simpa using (show n ∈ [1] from hn)
    subst h2
    change (1 : ℕ) ∉ [0]
    simp
  · obtain ⟨w', a, h, e, h1⟩ := Demo.stray_assembly env
    refine ⟨w', a, h, fun h0 => ?_⟩
    rw [h0] at h1
    simp at h1

/-! ### C29 for the graph -/

/-- C29: `chi2(true)` of the graph is non-negative with positive semidefinite information matrices; with positive definite
ones it is zero exactly when the residuals of all factors at the current states are zero. -/
theorem C29_graph (w : World) (ht : ∀ f ∈ w.g.factors, (w.fh f).wellTyped w.nh) :
    ∃ c w', w.chi2Eval = .ok (c, w') ∧
      ((∀ f ∈ w.g.factors, (w.fh f).virt.W.PosSemidef) → 0 ≤ c) ∧
      ((∀ f ∈ w.g.factors, (w.fh f).virt.W.PosDef) →
        (c = 0 ↔ ∀ f ∈ w.g.factors, (w.fh f).virt.res ((w.fh f).nbrs.map fun n => (w.nh n).val) = 0)) := by
  refine ⟨_, _, chi2Eval_eq w ht, fun h => ?_, fun h => ?_⟩
  · exact (list_sum_eq_zero fun f hf => (C29_factor _ _).1 (h f hf)).1
  · rw [cost, (list_sum_eq_zero fun f hf => (C29_factor _ _).1 (h f hf).posSemidef).2]
    exact forall₂_congr fun f hf => (C29_factor _ _).2 (h f hf)

example : ∃ c w', (World.run Demo.ops (Demo.world ![1, 2, 3] ![0, 1, 0] .huber)).chi2Eval = .ok (c, w') ∧ 0 ≤ c := by
  obtain ⟨c, w', h1, h2, -⟩ := C29_graph _ (C44_wired_partial _ rfl _ (Demo.proper ![1, 2, 3] ![0, 1, 0] .huber)).typed
  refine ⟨c, w', h1, h2 fun f _ => ?_⟩
  rw [(run_fh_static _ _ f).1]
  exact (Demo.posDef _ _ f).posSemidef

/-! ### C34 -/

/-- C34: in a consistent graph with symmetric information matrices, `L_` is the sum over the factors of `Jᵀ (w W) J` and `b_`
of `Jᵀ (w W) r`, in the columns of the active nodes in their order; `L_` is symmetric, and positive semidefinite when the
information matrices are.  (`robust_weight_` is zero after construction and never becomes negative.) -/
theorem C34_information (w : World) (hw : Wired w) (env : Env)
    (hs : ∀ f ∈ w.g.factors, (w.fh f).virt.W.IsSymm)
    (hwt : ∀ f ∈ w.g.factors, ((w.fh f).full w.nh).weightable) :
    ∃ (w' : World) (a : Assembly) (e : Cols w ≃ Fin a.N), w.buildAdjacency env = .ok (w', a) ∧
      (∀ c, (e c : ℕ) = offset (fun n => (w.nh n).dim) w.g.active c.1 + c.2) ∧
      a.L.submatrix e e = Spec.infoMatrix (graphTerms w) ∧
      (fun c => a.b (e c)) = Spec.infoVector (graphTerms w) ∧
      a.L.IsSymm ∧
      ((∀ f ∈ w.g.factors, (w.fh f).virt.W.PosSemidef ∧ 0 ≤ (w.fh f).weight) → a.L.PosSemidef) := by
  have hL := assembly_L_terms hw env hs
  refine ⟨w.built, w.assembly env, colEquiv hw, buildAdjacency_wired hw hwt env, colEquiv_val hw,
    hL, assembly_b_terms hw env hs, ?_, ?_⟩
  · have h1 : (Spec.infoMatrix (graphTerms w)).IsSymm := by
      refine infoMatrix_symm _ fun t ht => ?_
      obtain ⟨f, hf, rfl⟩ := List.mem_map.mp ht
      exact (hs f hf).smul _
    rw [← hL] at h1
    ext i j
    have h2 := congrFun (congrFun h1.eq ((colEquiv hw).symm i)) ((colEquiv hw).symm j)
    simpa using h2
  · intro hpsd
    have h1 : (Spec.infoMatrix (graphTerms w)).PosSemidef := by
      refine infoMatrix_posSemidef _ fun t ht => ?_
      obtain ⟨f, hf, rfl⟩ := List.mem_map.mp ht
      exact (hpsd f hf).1.smul (robustWeight_nonneg _ (hpsd f hf).2 (Real.sqrt_nonneg _))
    rw [← hL] at h1
    exact (Matrix.posSemidef_submatrix_equiv _).mp h1

/-- C34, meaning of the Jacobian of a term: a factor with one node has the columns of its Jacobian at that node; a factor
with two distinct nodes has the first columns at the first and the rest at the second; all others are zero. -/
theorem C34_blocks (w : World) (f : FRef) (c : Cols w) (l : Fin (w.fh f).virt.dim) :
    (∀ x, (w.fh f).nbrs = [x] → (factorTerm w f).J l c =
      if (c.1 : NRef) = x then (w.fh f).virt.jac [(w.nh x).val] l c.2 else 0) ∧
    (∀ x y, (w.fh f).nbrs = [x, y] → x ≠ y → (factorTerm w f).J l c =
      if (c.1 : NRef) = x then (w.fh f).virt.jac [(w.nh x).val, (w.nh y).val] l c.2
      else if (c.1 : NRef) = y then (w.fh f).virt.jac [(w.nh x).val, (w.nh y).val] l ((w.nh x).dim + c.2) else 0) := by
  have e : (factorTerm w f).J l c = blockEntry (fun n => (w.nh n).dim)
      ((w.fh f).virt.jac ((w.fh f).nbrs.map fun n => (w.nh n).val) l) c.1 c.2 0 (w.fh f).nbrs := rfl
  constructor
  · intro x hx
    rw [e, hx]
    by_cases h : (c.1 : NRef) = x
    · simp [blockEntry, h]
    · simp [blockEntry, h, Ne.symm h]
  · intro x y hx hxy
    rw [e, hx]
    by_cases h : (c.1 : NRef) = x
    · have h2 : ¬ y = (c.1 : NRef) := fun h' => hxy (h.symm.trans h'.symm)
      rw [if_pos h]
      simp only [blockEntry, if_pos h.symm, if_neg h2]
      simp
    · by_cases h2 : (c.1 : NRef) = y
      · rw [if_neg h, if_pos h2]
        simp only [blockEntry, if_pos h2.symm, if_neg (Ne.symm h)]
        simp
      · rw [if_neg h, if_neg h2]
        simp only [blockEntry, if_neg (Ne.symm h2), if_neg (Ne.symm h)]
        simp

example (env : Env) : ∃ w' a, (World.run Demo.ops (Demo.world ![1, 2, 3] ![0, 1, 0] .huber)).buildAdjacency env =
    .ok (w', a) ∧ a.L.PosSemidef := by
  have hw := C44_wired_partial _ rfl _ (Demo.proper ![1, 2, 3] ![0, 1, 0] .huber)
  have hpsd : ∀ f, ((World.run Demo.ops (Demo.world ![1, 2, 3] ![0, 1, 0] .huber)).fh f).virt.W.PosSemidef := fun f => by
    rw [(run_fh_static _ _ f).1]; exact (Demo.posDef _ _ f).posSemidef
  obtain ⟨w', a, e, h, -, -, -, -, h6⟩ := C34_information _ hw env
    (fun f _ => by
      have := (hpsd f).isHermitian
      rwa [Matrix.IsHermitian, conjTranspose_eq_transpose_of_trivial] at this)
    (((C44_assembly_partial _ hw env).2.1).mp ((C44_assembly_partial _ hw env).2.2 fun f _ => hpsd f))
  refine ⟨w', a, h, h6 fun f _ => ⟨hpsd f, ?_⟩⟩
  obtain ⟨k, hk⟩ := run_fh_eq Demo.ops (Demo.world ![1, 2, 3] ![0, 1, 0] .huber) f
  rw [hk]
  change 0 ≤ (Demo.factors _ _ f).weight
  by_cases h : f = 0 <;> simp [Demo.factors, h, FactorCell.new, robustWeightInit]

/-! ### C43 -/

/-- C43: two histories that add the same nodes in the same order and the same factors in any order, interleaved in any way,
give the same linear system and the same `chi2`. -/
theorem C43_order (w₀ : World) (h₀ : w₀.g = emptyGraph) (ops ops' : List GraphOp) (hp : Proper w₀ ops)
    (hno : NoSetMode ops') (hN : addedNodes ops' = addedNodes ops) (hF : (addedFactors ops').Perm (addedFactors ops))
    (hpsd : ∀ f ∈ addedFactors ops, (w₀.fh f).virt.W.PosSemidef) (env : Env) :
    ∃ w₁ a w₁' a', (World.run ops w₀).buildAdjacency env = .ok (w₁, a) ∧
      (World.run ops' w₀).buildAdjacency env = .ok (w₁', a') ∧
      (∃ e : a'.N = a.N, (∀ i j, a'.L i j = a.L (Fin.cast e i) (Fin.cast e j)) ∧ (∀ i, a'.b i = a.b (Fin.cast e i))) ∧
      w₁'.chi2Stored = w₁.chi2Stored ∧
      (∃ c w₂ w₂', (World.run ops w₀).chi2Eval = .ok (c, w₂) ∧ (World.run ops' w₀).chi2Eval = .ok (c, w₂')) := by
  have hp' : Proper w₀ ops' :=
    { noSetMode := hno
      nodup := hN ▸ hp.nodup
      noSchur := hN ▸ hp.noSchur
      registered := fun f hf => by rw [hN]; exact hp.registered f (hF.mem_iff.mp hf)
      noLoop := fun f hf => hp.noLoop f (hF.mem_iff.mp hf)
      typed := fun f hf => hp.typed f (hF.mem_iff.mp hf) }
  have hw := C44_wired_partial w₀ h₀ ops hp
  have hw' := C44_wired_partial w₀ h₀ ops' hp'
  have hfac : (World.run ops w₀).g.factors = addedFactors ops := by rw [run_factors, h₀]; rfl
  have hfac' : (World.run ops' w₀).g.factors = addedFactors ops' := by rw [run_factors, h₀]; rfl
  have hact : (World.run ops' w₀).g.active = (World.run ops w₀).g.active := by
    rw [run_active ops hp.noSetMode, run_active ops' hno, hN]
  have hsn := run_sameNodes ops ops' hp.noSetMode hno w₀ hp.nodup hN
  have hdim : (World.run ops' w₀).g.stateDim = (World.run ops w₀).g.stateDim := by
    rw [hw.stateDim, hw'.stateDim, hact]
    exact total_congr _ fun n _ => hsn.dim n
  have hwt : ∀ ops'', (∀ f ∈ (World.run ops'' w₀).g.factors, f ∈ addedFactors ops) →
      ∀ f ∈ (World.run ops'' w₀).g.factors, (((World.run ops'' w₀).fh f).full (World.run ops'' w₀).nh).weightable := by
    intro ops'' h f hf hc
    have h2 := hpsd f (h f hf)
    rw [← (run_fh_static ops'' w₀ f).1] at h2
    exact absurd hc.1 (not_lt.mpr ((C29_factor _ _).1 h2))
  have hb := buildAdjacency_wired hw (hwt ops (by rw [hfac]; exact fun _ h => h)) env
  have hb' := buildAdjacency_wired hw' (hwt ops' (by rw [hfac']; exact fun _ h => hF.mem_iff.mp h)) env
  have hfull : ∀ f, ∃ k k', ((World.run ops w₀).fh f).full (World.run ops w₀).nh =
        { (w₀.fh f).full (World.run ops w₀).nh with id := k } ∧
      ((World.run ops' w₀).fh f).full (World.run ops' w₀).nh =
        { (w₀.fh f).full (World.run ops w₀).nh with id := k' } := by
    intro f
    obtain ⟨k, hk⟩ := run_fh_eq ops w₀ f
    obtain ⟨k', hk'⟩ := run_fh_eq ops' w₀ f
    refine ⟨k, k', by rw [hk]; rfl, ?_⟩
    have : (w₀.fh f).full (World.run ops' w₀).nh = (w₀.fh f).full (World.run ops w₀).nh := by
      rw [FactorCell.full, FactorCell.full, hsn.vals]
    rw [hk', ← this]; rfl
  have hrow : ∀ j : ℕ, (World.run ops' w₀).rowAt j = (World.run ops w₀).rowAt j := by
    intro j
    funext c l
    rw [rowAt, rowAt, hact, hsn.colPairs, hsn.rowVal]
  have hcost : (World.run ops' w₀).cost = (World.run ops w₀).cost := by
    rw [cost, cost, hfac, hfac']
    have e : ∀ ops'' f, factorChi2 ((World.run ops'' w₀).fh f).virt.W (((World.run ops'' w₀).fh f).virt.res
        (((World.run ops'' w₀).fh f).vals (World.run ops'' w₀).nh)) =
        (((World.run ops'' w₀).fh f).full (World.run ops'' w₀).nh).chi2 := fun _ _ => rfl
    simp only [e]
    have e2 : (fun f => (((World.run ops' w₀).fh f).full (World.run ops' w₀).nh).chi2) =
        fun f => (((World.run ops w₀).fh f).full (World.run ops w₀).nh).chi2 := by
      funext f
      obtain ⟨k, k', h1, h2⟩ := hfull f
      rw [h1, h2]
    rw [e2]
    exact (hF.map _).sum_eq
  refine ⟨_, _, _, _, hb, hb', ⟨hdim, fun i j => ?_, fun i => ?_⟩, ?_, ?_⟩
  · rw [assembly_L hw', assembly_L hw, hfac, hfac', hrow, hrow]
    have e2 : (fun f => contrib (((World.run ops' w₀).fh f).full (World.run ops' w₀).nh).weighted
          ((World.run ops w₀).rowAt i) ((World.run ops w₀).rowAt j)) =
        fun f => contrib (((World.run ops w₀).fh f).full (World.run ops w₀).nh).weighted
          ((World.run ops w₀).rowAt i) ((World.run ops w₀).rowAt j) := by
      funext f
      obtain ⟨k, k', h1, h2⟩ := hfull f
      rw [h1, h2]; rfl
    rw [e2]
    exact (hF.map _).sum_eq
  · rw [assembly_b hw', assembly_b hw, hfac, hfac', hrow]
    have e2 : (fun f => contrib (((World.run ops' w₀).fh f).full (World.run ops' w₀).nh).weighted
          ((World.run ops w₀).rowAt i) (fun c l => c.r l)) =
        fun f => contrib (((World.run ops w₀).fh f).full (World.run ops w₀).nh).weighted
          ((World.run ops w₀).rowAt i) (fun c l => c.r l) := by
      funext f
      obtain ⟨k, k', h1, h2⟩ := hfull f
      rw [h1, h2]; rfl
    rw [e2]
    exact (hF.map _).sum_eq
  · rw [chi2Stored_built, chi2Stored_built, hcost]
  · exact ⟨_, _, _, chi2Eval_eq _ hw.typed, hcost ▸ chi2Eval_eq _ hw'.typed⟩

example (env : Env) : ∃ w₁ a w₁' a',
    (World.run Demo.ops (Demo.world ![1, 2, 3] ![0, 1, 0] .huber)).buildAdjacency env = .ok (w₁, a) ∧
    (World.run Demo.ops' (Demo.world ![1, 2, 3] ![0, 1, 0] .huber)).buildAdjacency env = .ok (w₁', a') ∧
    w₁'.chi2Stored = w₁.chi2Stored := by
  obtain ⟨w₁, a, w₁', a', h1, h2, -, h4, -⟩ := C43_order (Demo.world ![1, 2, 3] ![0, 1, 0] .huber) rfl Demo.ops Demo.ops'
    (Demo.proper _ _ _) (by
      intro op hop n m; simp [Demo.ops'] at hop; rcases hop with rfl | rfl | rfl | rfl <;> simp) rfl
    (by simp [addedFactors, Demo.ops, Demo.ops', List.Perm.swap]) (fun f _ => (Demo.posDef _ _ f).posSemidef) env
  exact ⟨w₁, a, w₁', a', h1, h2, h4⟩

end Mrob
