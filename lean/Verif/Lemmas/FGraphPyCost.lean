import Verif.Lemmas.FGraphPy
import Verif.Spec.Python
import Verif.Props.Node
import Verif.Props.Solve

/-!
# Helper lemmas for the properties of the Python interface
-/

open Matrix Spec

namespace Mrob

open World FGraphPy

theorem step_benign {p : FGraphPy} {ns : List (NodeKind × Mode)} {fs : List PyFactor} (h : PyInv p ns fs)
    (hm : ∀ k ∈ ns, k.2 ≠ .schur) (hf : ∀ c ∈ fs, c.Fits ns) (hp : ∀ c ∈ fs, c.InfoPsd) (c : Call) (hl : Legal ns [c])
    (hb : Benign c) : p.step c ≠ .nan := by
  cases c with
  | node k x m => rw [FGraphPy.step]; simp
  | factor c =>
    obtain ⟨p', h1, -⟩ := h.addFactor hl.1
    rw [FGraphPy.step, h1, Out.ok_bind]; simp
  | solve env m k l t =>
    obtain ⟨rfl, henv⟩ := hb
    obtain ⟨s', hs⟩ := C37_returns env henv p.s (h.wellPosed hm hf hp) k l t
    rw [FGraphPy.step, hs, Out.ok_bind]; simp
  | chi2 =>
    rw [FGraphPy.step, chi2Eval_eq p.s.w (h.wired hm hf).typed, Out.ok_bind]; simp

theorem run_benign : ∀ (cs : List Call) {p : FGraphPy} {ns : List (NodeKind × Mode)} {fs : List PyFactor}, PyInv p ns fs →
    (∀ k ∈ ns, k.2 ≠ .schur) → (∀ c ∈ fs, c.Fits ns) → (∀ c ∈ fs, c.InfoPsd) → Legal ns cs → (∀ c ∈ cs, Benign c) →
    run cs p ≠ .nan
  | [], _, _, _, _, _, _, _, _, _ => by rw [FGraphPy.run]; simp
  | c :: cs, p, ns, fs, h, hm, hf, hp, hl, hb => by
    have hlc := legal_cons hl
    rcases step_legal h hm hf c hlc.1 with h1 | ⟨q, ⟨r, h1, h2⟩, h3⟩
    · exact absurd h1 (step_benign h hm hf hp c hlc.1 (hb c List.mem_cons_self))
    · have hm' : ∀ k ∈ ns ++ created [c], k.2 ≠ .schur := by
        intro k hk
        rcases List.mem_append.mp hk with hk | hk
        · exact hm k hk
        · exact legal_created hlc.1 k hk
      have hf' : ∀ d ∈ fs ++ factorsOf [c], d.Fits (ns ++ created [c]) := by
        intro d hd
        rcases List.mem_append.mp hd with hd | hd
        · exact (hf d hd).append _
        · exact legal_fits hlc.1 d hd
      have hp' : ∀ d ∈ fs ++ factorsOf [c], d.InfoPsd := by
        intro d hd
        rcases List.mem_append.mp hd with hd | hd
        · exact hp d hd
        · have hbc := hb c List.mem_cons_self
          cases c with
          | factor e =>
            rw [factorsOf, factorsOf, List.mem_singleton] at hd
            rw [hd]; exact hbc
          | node k x m => simp [factorsOf] at hd
          | solve env m k l t => simp [factorsOf] at hd
          | chi2 => simp [factorsOf] at hd
      have hr := run_benign cs h3.inv hm' hf' hp' hlc.2 fun d hd => hb d (List.mem_cons_of_mem _ hd)
      rw [FGraphPy.run, h1, Out.ok_bind]
      rcases run_legal cs h3.inv hm' hf' hlc.2 with h4 | ⟨q', h4, -⟩
      · exact absurd h4 hr
      · rw [h4, Out.ok_bind]; simp

/-- A legal history with all kinds of calls: two poses of which the first is fixed, a landmark created before its pose is
known, odometry, range and bearing, and `solve`. -/
noncomputable def Demo.history (env : Env) : List Call :=
  [.node .pose2d 0 .anchor, .node .landmark2d 0 .standard, .node .pose2d ![1, 0, 0] .standard,
    .factor (.odom ![0, 1, 0] 0 2 1), .factor (.land2d ![2, 1] 2 1 1 true), .chi2, .solve env .LM 10 1e-5 1e-2,
    .node .landmark3d 0 .standard]

/-- A new graph. -/
noncomputable def Demo.newGraph : FGraphPy :=
  FGraphPy.new .huber (fun _ => NodeCell.new .pose2d 0 .anchor) (fun _ => FactorCell.new (.prior2d 0 1 .quadratic) [] 0 0)
    fun _ _ => (0, 0)

theorem Demo.history_legal (env : Env) : Legal [] (Demo.history env) := by
  refine ⟨by simp, by simp, by simp, ⟨?_, ?_⟩, ⟨?_, ?_⟩, by simp, trivial⟩ <;> simp [PyFactor.uses]

theorem solve_ub {env : Env} {s : FGraphSolve} (h : s.w.buildAdjacency env = .ub) (m : FGraphSolve.Method) (k : ℕ) (l t : ℝ) :
    s.solve env m k l t = .ub := by
  cases m with
  | GN =>
    rw [FGraphSolve.solve]
    simp only [FGraphSolve.gaussNewton, h]
    rfl
  | LM =>
    rw [FGraphSolve.solve]
    simp only [FGraphSolve.levenbergMarquardt]
    rw [FGraphSolve.lmLoop]
    simp only [FGraphSolve.trial, FGraphSolve.gaussNewton, h]
    rfl

theorem pyRun_append : ∀ (cs ds : List Call) (p : FGraphPy), run (cs ++ ds) p =
    (run cs p >>= fun r => run ds r.2 >>= fun q => .ok (r.1 ++ q.1, q.2))
  | [], ds, p => by
    rw [List.nil_append, FGraphPy.run, Out.ok_bind]
    cases run ds p <;> rfl
  | c :: cs, ds, p => by
    rw [List.cons_append, FGraphPy.run, FGraphPy.run]
    cases h : p.step c with
    | ok r =>
      simp only [Out.ok_bind, pyRun_append cs ds]
      cases run cs r.2 with
      | ok r' =>
        simp only [Out.ok_bind]
        cases run ds r'.2 <;> rfl
      | nan => rfl
      | ub => rfl
      | throw => rfl
    | nan => rfl
    | ub => rfl
    | throw => rfl

theorem factorChi2_eq {n : ℕ} (W : Matrix (Fin n) (Fin n) ℝ) (r : Fin n → ℝ) : factorChi2 W r = halfSq W r := by
  rw [factorChi2, halfSq, dotProduct, div_eq_inv_mul]
  norm_num
  refine Finset.sum_congr rfl fun i _ => ?_
  rw [mulVec, dotProduct, Finset.mul_sum]
  exact Finset.sum_congr rfl fun j _ => by ring

theorem halfSq_neg {n : ℕ} (W : Matrix (Fin n) (Fin n) ℝ) (r : Fin n → ℝ) : halfSq W (-r) = halfSq W r := by
  simp [halfSq]

theorem NodeCell.val_of_kind {c : NodeCell} {k : NodeKind} (h : c.kind = k) : ∃ x : k.State, c.val = ⟨k, x⟩ := by
  subst h; exact ⟨_, rfl⟩

/-- The residuals of the model, for the roles named in the call. -/
theorem chi2_factor {c : PyFactor} (ty : Robust) {val : ℕ → NodeVal} {v : ℕ → Option NodeVal}
    (hv : ∀ u ∈ c.uses, v u.1 = some (val u.1) ∧ ∃ x : u.2.State, val u.1 = ⟨u.2, x⟩) (hp : Plain v c) :
    factorChi2 (c.virt ty).W ((c.virt ty).res (c.nbrs.map val)) = expectedChi2 v c := by
  cases c with
  | prior2d obs n W =>
    obtain ⟨h1, x, h2⟩ := hv (n, .pose2d) (by simp [PyFactor.uses])
    change factorChi2 W ((FactorVirt.prior2d obs W ty).res [val n]) = _
    simp only [expectedChi2, h1, h2]
    refine (factorChi2_eq W (prior2dRes obs x)).trans ?_
    congr 1
    funext i; fin_cases i <;> simp [prior2dRes, wrap2, absErr2, C21_wrap]
  | rel2d obs o t W upd =>
    obtain ⟨h1, x, h2⟩ := hv (o, .pose2d) (by simp [PyFactor.uses])
    obtain ⟨h3, y, h4⟩ := hv (t, .pose2d) (by simp [PyFactor.uses])
    have hlt : o < t := hp
    have e : (PyFactor.rel2d obs o t W upd).virt ty = FactorVirt.rel2d obs W ty := by rw [PyFactor.virt, if_pos hlt]
    rw [e, PyFactor.nbrs, if_pos hlt]
    change factorChi2 W ((FactorVirt.rel2d obs W ty).res [val o, val t]) = _
    simp only [expectedChi2, h1, h2, h3, h4]
    refine (factorChi2_eq W (rel2dRes obs x y)).trans ?_
    congr 1
    funext i; fin_cases i <;> simp [rel2dRes, wrap2, relErr2, C21_wrap]
  | odom obs o t W =>
    obtain ⟨h1, x, h2⟩ := hv (o, .pose2d) (by simp [PyFactor.uses])
    obtain ⟨h3, y, h4⟩ := hv (t, .pose2d) (by simp [PyFactor.uses])
    have hlt : o < t := hp
    have e : (PyFactor.odom obs o t W).virt ty = FactorVirt.odom obs W ty := by rw [PyFactor.virt, if_pos hlt]
    rw [e, PyFactor.nbrs, if_pos hlt]
    change factorChi2 W ((FactorVirt.odom obs W ty).res [val o, val t]) = _
    simp only [expectedChi2, h1, h2, h3, h4]
    refine (factorChi2_eq W (odomRes obs x y)).trans ?_
    congr 1
    funext i; fin_cases i <;> simp [odomRes, odomPredict, wrap2, odomErr2, C21_wrap]
  | prior3d obs n W =>
    obtain ⟨h1, x, h2⟩ := hv (n, .pose3d) (by simp [PyFactor.uses])
    change factorChi2 W ((FactorVirt.prior3d obs W ty).res [val n]) = _
    simp only [expectedChi2, h1, h2]
    exact factorChi2_eq _ _
  | rel3d obs o t W upd =>
    obtain ⟨h1, x, h2⟩ := hv (o, .pose3d) (by simp [PyFactor.uses])
    obtain ⟨h3, y, h4⟩ := hv (t, .pose3d) (by simp [PyFactor.uses])
    have hlt : o < t := hp
    rw [PyFactor.nbrs, if_pos hlt]
    change factorChi2 W ((FactorVirt.rel3d obs W ty).res [val o, val t]) = _
    simp only [expectedChi2, h1, h2, h3, h4]
    exact factorChi2_eq _ _
  | land3d obs o t W ini =>
    obtain ⟨h1, x, h2⟩ := hv (o, .pose3d) (by simp [PyFactor.uses])
    obtain ⟨h3, y, h4⟩ := hv (t, .landmark3d) (by simp [PyFactor.uses])
    have key : factorChi2 W (land3dRes obs x y) = expectedChi2 v (.land3d obs o t W ini) := by
      simp only [expectedChi2, h1, h2, h3, h4]
      rw [factorChi2_eq]
      congr 1
      rw [land3dRes, pointErr, SE3.transform, SE3.inv]
      have e1 : (⟨homog x.Rᵀ ((-x.Rᵀ) *ᵥ x.t) 1⟩ : SE3).R = x.Rᵀ := rfl
      have e2 : (⟨homog x.Rᵀ ((-x.Rᵀ) *ᵥ x.t) 1⟩ : SE3).t = (-x.Rᵀ) *ᵥ x.t := rfl
      rw [e1, e2, mulVec_sub, neg_mulVec, sub_eq_add_neg (x.Rᵀ *ᵥ y)]
    rw [← key, PyFactor.nbrs, PyFactor.virt]
    split <;> simp only [List.map_cons, List.map_nil, h2, h4] <;> rfl
  | land2d obs o t W ini =>
    obtain ⟨h1, x, h2⟩ := hv (o, .pose2d) (by simp [PyFactor.uses])
    obtain ⟨h3, y, h4⟩ := hv (t, .landmark2d) (by simp [PyFactor.uses])
    have hd := hp x y (by rw [h1, h2]) (by rw [h3, h4])
    have key : factorChi2 W (land2dRes obs x y) = expectedChi2 v (.land2d obs o t W ini) := by
      simp only [expectedChi2, h1, h2, h3, h4]
      rw [factorChi2_eq]
      congr 1
      rw [sq, sq] at hd
      simp only [land2dRes]
      rw [if_neg (not_lt.mpr hd), rangeBearingErr, catan2, C21_wrap, sq, sq]
    rw [← key, PyFactor.nbrs, PyFactor.virt]
    split <;> simp only [List.map_cons, List.map_nil, h2, h4] <;> rfl
  | plane4d obs o t W =>
    obtain ⟨h1, x, h2⟩ := hv (o, .pose3d) (by simp [PyFactor.uses])
    obtain ⟨h3, y, h4⟩ := hv (t, .plane4d) (by simp [PyFactor.uses])
    have hob : planeObs obs = obs := by
      have h1 : sqNorm (fun i => obs (Sum.inl i)) = 1 := hp
      funext i
      rcases i with i | i
      · rw [planeObs, normalizeHead_inl _ (by rw [h1]; norm_num), h1, Real.sqrt_one, div_one]
      · rw [planeObs, normalizeHead_inr]
    have key : factorChi2 W (fun i => planeRes (planeObs obs) x y (at4 i)) = expectedChi2 v (.plane4d obs o t W) := by
      simp only [expectedChi2, h1, h2, h3, h4]
      rw [factorChi2_eq, hob]
      by_cases hs : planeLocal x y (Sum.inr ()) < 0
      · refine (halfSq_neg W _).symm.trans ?_
        congr 1
        funext i
        have hs' : ¬ 0 ≤ (x.Tᵀ *ᵥ y) (Sum.inr ()) := not_le.mpr hs
        have e : planeRes obs x y = planeLocal x y + obs := by rw [planeRes, if_pos hs]
        simp only [planeErr, if_neg hs', e, Pi.neg_apply, planeLocal, Pi.sub_apply, Pi.add_apply]
        ring
      · congr 1
        funext i
        have hs' : 0 ≤ (x.Tᵀ *ᵥ y) (Sum.inr ()) := not_lt.mp hs
        have e : planeRes obs x y = planeLocal x y - obs := by rw [planeRes, if_neg hs]
        simp only [planeErr, if_pos hs', e, planeLocal]
    rw [← key, PyFactor.nbrs, PyFactor.virt]
    split <;> simp only [List.map_cons, List.map_nil, h2, h4] <;> rfl
  | p2plane px py ny n W =>
    obtain ⟨h1, x, h2⟩ := hv (n, .pose3d) (by simp [PyFactor.uses])
    change factorChi2 W ((FactorVirt.p2plane px py ny W ty).res [val n]) = _
    simp only [expectedChi2, h1, h2]
    exact factorChi2_eq _ _

theorem map_range_eq {α β : Type} {l : List α} {g : ℕ → β} {k : α → β} (h : ∀ i (hi : i < l.length), g i = k l[i]) :
    (List.range l.length).map g = l.map k := by
  refine List.ext_getElem (by simp) fun i h2 h3 => ?_
  simp only [List.getElem_map, List.getElem_range]
  exact h i (by simpa using h3)

theorem PyInv.chi2 {p : FGraphPy} {ns : List (NodeKind × Mode)} {fs : List PyFactor} (hi : PyInv p ns fs)
    (hf : ∀ c ∈ fs, c.Fits ns) : p.s.w.chi2Eval = .ok ((fs.map fun c => factorChi2 (c.virt p.robust).W
      ((c.virt p.robust).res (c.nbrs.map fun n => (p.s.w.nh n).val))).sum,
      mapF (·.resd p.s.w.nh) p.s.w.g.factors p.s.w) := by
  rw [chi2Eval_eq _ (hi.typed fun c hc => (hf c hc).1)]
  congr 2
  rw [cost, hi.factors]
  congr 1
  refine map_range_eq fun i hlt => ?_
  have h := hi.factor i _ (List.getElem?_eq_getElem hlt)
  rw [FactorCell.vals, h.2.1, h.1]

/-- A history of two nodes and a factor that sets no state. -/
theorem Demo.run_pair (k k' : NodeKind) (x : k.State) (y : k'.State) (c : PyFactor)
    (hc : c.Fits [(k, .standard), (k', .standard)]) (ht : c.target = none) :
    ∃ q w', run [.node k x .standard, .node k' y .standard, .factor c] Demo.newGraph = .ok ([some 0, some 1, some 0], q) ∧
      q.s.w.estimatedState = [⟨k, k.construct x⟩, ⟨k', k'.construct y⟩] ∧
      q.s.w.chi2Eval = .ok (factorChi2 (c.virt .huber).W ((c.virt .huber).res (c.nbrs.map fun n => (q.s.w.nh n).val)), w') ∧
      (q.s.w.nh 0).val = ⟨k, k.construct x⟩ ∧ (q.s.w.nh 1).val = ⟨k', k'.construct y⟩ := by
  have hl : Legal [] [.node k x .standard, .node k' y .standard, .factor c] := ⟨by simp, by simp, hc, trivial⟩
  have hns : NoSolve [.node k x .standard, .node k' y .standard, .factor c] := by
    intro d hd env m k l t
    simp only [List.mem_cons, List.not_mem_nil, or_false] at hd
    rcases hd with rfl | rfl | rfl <;> simp
  rcases run_legal _ (PyInv.new .huber (fun _ => NodeCell.new .pose2d 0 .anchor)
    (fun _ => FactorCell.new (.prior2d 0 1 .quadratic) [] 0 0) fun _ _ => (0, 0)) (by simp) (by simp) hl with h | ⟨q, h, ha⟩
  · exfalso
    simp only [FGraphPy.run, FGraphPy.step, Out.ok_bind] at h
    have h0 := (((PyInv.new .huber (fun _ => NodeCell.new .pose2d 0 .anchor)
      (fun _ => FactorCell.new (.prior2d 0 1 .quadratic) [] 0 0) fun _ _ => (0, 0)).addNode k x .standard).1.addNode k' y
      .standard).1
    obtain ⟨p', h1, -⟩ := h0.addFactor hc
    rw [h1] at h
    simp only [Out.ok_bind] at h
    exact absurd h (by simp)
  · have hi : PyInv q [(k, .standard), (k', .standard)] [c] := ha.inv
    have hr : q.robust = .huber := ha.robust
    have h0 := ha.fresh 0 _ _ rfl rfl (.inr hns) (by simp [factorsOf, ht])
    have h1 := ha.fresh 1 _ _ rfl rfl (.inr hns) (by simp [factorsOf, ht])
    have hch := hi.chi2 (by simpa using hc)
    rw [hr] at hch
    refine ⟨q, mapF (·.resd q.s.w.nh) q.s.w.g.factors q.s.w, h, ?_, ?_, h0, h1⟩
    · rw [estimatedState, hi.nodes]
      change [(q.s.w.nh 0).val, (q.s.w.nh 1).val] = _
      exact congrArg₂ (fun a b => [a, b]) h0 h1
    · rw [hch, List.map_singleton, List.sum_singleton]

theorem update_pose2d {c : NodeCell} {x : Vec3} (h : c.val = ⟨.pose2d, x⟩) (d : Vec3) :
    (c.update (flat d)).val = ⟨.pose2d, wrap2 (x + d)⟩ := by
  obtain ⟨k, obj, id, m, ns⟩ := c
  cases k <;> simp [NodeCell.val] at h
  subst h
  change (⟨NodeKind.pose2d, wrap2 (obj.state + fun k : Fin 3 => flat d k)⟩ : NodeVal) = _
  congr 2
  funext i
  simp [flat]

theorem pose2d?_of_val {c : NodeCell} {x : Vec3} (h : c.val = ⟨.pose2d, x⟩) : c.pose2d? = some x := by
  rw [NodeCell.pose2d?, h]

theorem pose3d?_of_val {c : NodeCell} {x : SE3} (h : c.val = ⟨.pose3d, x⟩) : c.pose3d? = some x := by
  rw [NodeCell.pose3d?, h]

theorem setVal_ok {c : NodeCell} {k : NodeKind} (h : c.kind = k) (x : k.State) :
    ∃ c', c.setVal ⟨k, x⟩ = .ok c' ∧ c'.val = ⟨k, k.store x⟩ := by
  subst h
  exact ⟨_, dif_pos rfl, rfl⟩

end Mrob
