import Verif.Lemmas.Assembly
import Verif.Lemmas.Graph
import Verif.Model.PlaneReg
import Verif.Model.Dense
import Verif.Model.Dense
import Verif.Model.PlaneReg

/-! # Calls that only look at the state -/

namespace Mrob

/-- A factor without the results of the last evaluation of its residual. -/
def FactorCell.clean (c : FactorCell) : FactorCell := { c with r := 0, chi2 := 0 }

namespace FactorCell

theorem full_clean (c : FactorCell) (nh : NRef → NodeCell) : c.clean.full nh = c.full nh := rfl
theorem typed_clean (c : FactorCell) (nh : NRef → NodeCell) : c.clean.wellTyped nh = c.wellTyped nh := rfl
theorem clean_resd (c : FactorCell) (nh : NRef → NodeCell) : (c.resd nh).clean = c.clean := rfl
theorem resd_clean (c : FactorCell) (nh : NRef → NodeCell) : c.clean.resd nh = c.resd nh := rfl

end FactorCell

namespace World

/-- Worlds that differ only in the residuals and `chi2_` stored in factors of the list. -/
structure QuietOn (l : List FRef) (w w' : World) : Prop where
  /-- nodes -/
  nh : w'.nh = w.nh
  /-- graph -/
  g : w'.g = w.g
  /-- factors -/
  clean : ∀ f, (w'.fh f).clean = (w.fh f).clean
  /-- other factors -/
  other : ∀ f, f ∉ l → w'.fh f = w.fh f

/-- Worlds that differ only in the residuals and `chi2_` stored in factors of the graph. -/
def Quiet (w w' : World) : Prop := QuietOn w.g.factors w w'

theorem Quiet.refl (w : World) : Quiet w w := ⟨rfl, rfl, fun _ => rfl, fun _ _ => rfl⟩

theorem QuietOn.eq_of_nil {w w' : World} (h : QuietOn [] w w') : w' = w := by
  obtain ⟨nh, fh, g⟩ := w
  obtain ⟨nh', fh', g'⟩ := w'
  have h1 := h.nh
  have h2 := h.g
  have h3 : fh' = fh := funext fun f => h.other f (by simp)
  dsimp only at h1 h2
  subst h1 h2 h3
  rfl

theorem QuietOn.set {l : List FRef} {w w' : World} {f : FRef} (h : QuietOn (f :: l) w w') (c : FactorCell) :
    QuietOn l (w.setF f c) (w'.setF f c) := by
  refine ⟨h.nh, h.g, fun g => ?_, fun g hg => ?_⟩
  · by_cases hgf : g = f
    · subst hgf; simp [setF]
    · simpa [setF, Function.update_of_ne hgf] using h.clean g
  · by_cases hgf : g = f
    · subst hgf; simp [setF]
    · simpa [setF, Function.update_of_ne hgf] using h.other g (by simp [hgf, hg])

/-- A full evaluation forgets what an earlier evaluation has stored. -/
theorem QuietOn.evalFull : ∀ {l : List FRef} {w w' : World}, QuietOn l w w' → forAll evalFull l w' = forAll evalFull l w
  | [], w, w', h => by rw [h.eq_of_nil]
  | f :: l, w, w', h => by
    have e1 : (w'.fh f).wellTyped w'.nh = (w.fh f).wellTyped w.nh := by
      rw [← FactorCell.typed_clean, h.clean, h.nh, FactorCell.typed_clean]
    have e2 : (w'.fh f).full w'.nh = (w.fh f).full w.nh := by
      rw [← FactorCell.full_clean, h.clean, h.nh, FactorCell.full_clean]
    rw [forAll, forAll, World.evalFull, World.evalFull, e2]
    by_cases ht : (w.fh f).wellTyped w.nh
    · rw [if_pos ht, if_pos (e1 ▸ ht), Out.ok_bind, Out.ok_bind]
      exact (h.set _).evalFull
    · rw [if_neg ht, if_neg (e1 ▸ ht)]

/-- Likewise for the evaluation of the residuals. -/
theorem QuietOn.evalRes : ∀ {l : List FRef} {w w' : World}, QuietOn l w w' → forAll evalRes l w' = forAll evalRes l w
  | [], w, w', h => by rw [h.eq_of_nil]
  | f :: l, w, w', h => by
    have e1 : (w'.fh f).wellTyped w'.nh = (w.fh f).wellTyped w.nh := by
      rw [← FactorCell.typed_clean, h.clean, h.nh, FactorCell.typed_clean]
    have e2 : (w'.fh f).resd w'.nh = (w.fh f).resd w.nh := by
      rw [← FactorCell.resd_clean, h.clean, h.nh, FactorCell.resd_clean]
    rw [forAll, forAll, World.evalRes, World.evalRes, e2]
    by_cases ht : (w.fh f).wellTyped w.nh
    · rw [if_pos ht, if_pos (e1 ▸ ht), Out.ok_bind, Out.ok_bind]
      exact (h.set _).evalRes
    · rw [if_neg ht, if_neg (e1 ▸ ht)]

theorem Quiet.evalFull {w w' : World} (h : Quiet w w') :
    forAll World.evalFull w'.g.factors w' = forAll World.evalFull w.g.factors w := by
  rw [h.g]; exact QuietOn.evalFull h

theorem Quiet.chi2Eval {w w' : World} (h : Quiet w w') : w'.chi2Eval = w.chi2Eval := by
  rw [World.chi2Eval, World.chi2Eval, h.g, QuietOn.evalRes h]

theorem Quiet.buildAdjacency {w w' : World} (h : Quiet w w') (env : Env) : w'.buildAdjacency env = w.buildAdjacency env := by
  rw [World.buildAdjacency, World.buildAdjacency, h.evalFull]

/-- `chi2(true)` changes nothing else. -/
theorem quiet_chi2 {w w₁ : World} {c : ℝ} (h : w.chi2Eval = .ok (c, w₁)) : Quiet w w₁ := by
  rw [World.chi2Eval] at h
  obtain ⟨w2, h1, h⟩ := Out.bind_eq_ok.mp h
  have ht := forAll_evalRes_ok _ _ _ h1
  rw [forAll_evalRes _ _ ht, Out.ok.injEq] at h1
  subst h1
  obtain ⟨-, rfl⟩ := Prod.mk.inj (Out.ok.inj h)
  refine ⟨rfl, rfl, fun f => ?_, fun f hf => ?_⟩
  · rw [mapF_fh]
    split_ifs <;> rfl
  · rw [mapF_fh, if_neg hf]

theorem Quiet.symm {w w' : World} (h : Quiet w w') : Quiet w' w :=
  ⟨h.nh.symm, h.g.symm, fun f => (h.clean f).symm, fun f hf => (h.other f (by rw [h.g] at hf; exact hf)).symm⟩

theorem Quiet.trans {w w' w'' : World} (h : Quiet w w') (h' : Quiet w' w'') : Quiet w w'' :=
  ⟨h'.nh.trans h.nh, h'.g.trans h.g, fun f => (h'.clean f).trans (h.clean f), fun f hf =>
    (h'.other f (by rw [h.g]; exact hf)).trans (h.other f hf)⟩

theorem graph_ext {g g' : Graph} (h1 : g'.nodes = g.nodes) (h2 : g'.active = g.active) (h3 : g'.factors = g.factors)
    (h4 : g'.eigenFactors = g.eigenFactors) (h5 : g'.stateDim = g.stateDim) (h6 : g'.obsDim = g.obsDim) : g' = g := by
  obtain ⟨⟩ := g
  obtain ⟨⟩ := g'
  dsimp only at h1 h2 h3 h4 h5 h6
  subst h1 h2 h3 h4 h5 h6
  rfl

theorem Quiet.update {w w' : World} (h : Quiet w w') (k : ℕ) (f x : FRef) :
    (Function.update w'.fh f { w'.fh f with id := k } x).clean = (Function.update w.fh f { w.fh f with id := k } x).clean := by
  by_cases hx : x = f
  · subst hx
    rw [Function.update_self, Function.update_self]
    exact congrArg (fun c : FactorCell => { c with id := k }) (h.clean x)
  · rw [Function.update_of_ne hx, Function.update_of_ne hx, h.clean]

theorem Quiet.update_other {w w' : World} (h : Quiet w w') (k : ℕ) (f x : FRef) (hx : x ∉ w.g.factors) :
    Function.update w'.fh f { w'.fh f with id := k } x = Function.update w.fh f { w.fh f with id := k } x := by
  by_cases hxf : x = f
  · subst hxf
    rw [Function.update_self, Function.update_self, h.other x hx]
  · rw [Function.update_of_ne hxf, Function.update_of_ne hxf, h.other x hx]

theorem Quiet.nbrs {w w' : World} (h : Quiet w w') (f : FRef) : (w'.fh f).nbrs = (w.fh f).nbrs := by
  have := congrArg FactorCell.nbrs (h.clean f); exact this
theorem Quiet.dim {w w' : World} (h : Quiet w w') (f : FRef) : (w'.fh f).virt.dim = (w.fh f).virt.dim := by
  have := congrArg (fun c => (FactorCell.virt c).dim) (h.clean f); exact this

theorem Quiet.graphOp {w w' : World} (h : Quiet w w') (op : GraphOp) : Quiet (op.run w) (op.run w') := by
  cases op with
  | addNode n =>
    refine ⟨?_, ?_, fun f => ?_, fun f hf => ?_⟩
    · change (w'.addNode n).2.nh = (w.addNode n).2.nh
      rw [addNode_nh, addNode_nh, h.nh, h.g]
    · change (w'.addNode n).2.g = (w.addNode n).2.g
      apply graph_ext
      · rw [addNode_nodes, addNode_nodes, h.g]
      · rw [addNode_active, addNode_active, h.g, h.nh]
      · rw [addNode_factors, addNode_factors, h.g]
      · rw [addNode_eigen, addNode_eigen, h.g]
      · rw [addNode_stateDim, addNode_stateDim, h.g, h.nh]
      · rw [addNode_obsDim, addNode_obsDim, h.g]
    · change ((w'.addNode n).2.fh f).clean = ((w.addNode n).2.fh f).clean
      rw [addNode_fh, addNode_fh, h.clean]
    · change f ∉ (w.addNode n).2.g.factors at hf
      rw [addNode_factors] at hf
      change (w'.addNode n).2.fh f = (w.addNode n).2.fh f
      rw [addNode_fh, addNode_fh, h.other f hf]
  | addFactor f =>
    refine ⟨?_, ?_, fun x => ?_, fun x hx => ?_⟩
    · change (w'.addFactor f).2.nh = (w.addFactor f).2.nh
      funext m
      rw [addFactor_nh, addFactor_nh, h.nh, h.nbrs]
    · change (w'.addFactor f).2.g = (w.addFactor f).2.g
      apply graph_ext
      · rw [addFactor_nodes, addFactor_nodes, h.g]
      · rw [addFactor_active, addFactor_active, h.g]
      · rw [addFactor_factors, addFactor_factors, h.g]
      · rw [addFactor_eigen, addFactor_eigen, h.g]
      · rw [addFactor_stateDim, addFactor_stateDim, h.g]
      · rw [addFactor_obsDim, addFactor_obsDim, h.g, h.dim]
    · change ((w'.addFactor f).2.fh x).clean = ((w.addFactor f).2.fh x).clean
      rw [addFactor_fh, addFactor_fh, h.g]
      exact h.update _ f x
    · change x ∉ (w.addFactor f).2.g.factors at hx
      rw [addFactor_factors] at hx
      change (w'.addFactor f).2.fh x = (w.addFactor f).2.fh x
      rw [addFactor_fh, addFactor_fh, h.g]
      exact h.update_other _ f x fun hm => hx (List.mem_append_left _ hm)
  | addEigenFactor f =>
    refine ⟨?_, ?_, fun x => ?_, fun x hx => ?_⟩
    · change (w'.addEigenFactor f).2.nh = (w.addEigenFactor f).2.nh
      funext m
      rw [addEigenFactor_nh, addEigenFactor_nh, h.nh, h.nbrs]
    · change (w'.addEigenFactor f).2.g = (w.addEigenFactor f).2.g
      apply graph_ext
      · rw [addEigenFactor_nodes, addEigenFactor_nodes, h.g]
      · rw [addEigenFactor_active, addEigenFactor_active, h.g]
      · rw [addEigenFactor_factors, addEigenFactor_factors, h.g]
      · rw [addEigenFactor_eigen, addEigenFactor_eigen, h.g]
      · rw [addEigenFactor_stateDim, addEigenFactor_stateDim, h.g]
      · rw [addEigenFactor_obsDim, addEigenFactor_obsDim, h.g, h.dim]
    · change ((w'.addEigenFactor f).2.fh x).clean = ((w.addEigenFactor f).2.fh x).clean
      rw [addEigenFactor_fh, addEigenFactor_fh, h.g]
      exact h.update _ f x
    · change x ∉ (w.addEigenFactor f).2.g.factors at hx
      rw [addEigenFactor_factors] at hx
      change (w'.addEigenFactor f).2.fh x = (w.addEigenFactor f).2.fh x
      rw [addEigenFactor_fh, addEigenFactor_fh, h.g]
      exact h.update_other _ f x hx
  | setMode n m =>
    refine ⟨?_, h.g, h.clean, h.other⟩
    change Function.update w'.nh n _ = Function.update w.nh n _
    rw [h.nh]

end World

namespace FGraphSolve

/-- Solvers that differ only in the residuals and `chi2_` stored in factors of the graph. -/
structure Quiet (s s' : FGraphSolve) : Prop where
  /-- worlds -/
  w : World.Quiet s.w s'.w
  /-- everything else -/
  rest : s' = { s with w := s'.w }

theorem Quiet.refl (s : FGraphSolve) : Quiet s s := ⟨.refl _, rfl⟩

theorem Quiet.gaussNewton {s s' : FGraphSolve} (h : Quiet s s') (env : Env) (b : Bool) :
    s'.gaussNewton env b = s.gaussNewton env b := by
  obtain ⟨w', lambda', tol', sys', mats'⟩ := s'
  have hr := h.rest
  have hw := h.w
  dsimp only at hr hw
  obtain ⟨-, rfl, rfl, rfl, rfl⟩ := FGraphSolve.mk.inj hr
  rw [FGraphSolve.gaussNewton, FGraphSolve.gaussNewton]
  dsimp only
  rw [hw.buildAdjacency]

theorem Quiet.trial {s s' : FGraphSolve} (h : Quiet s s') (env : Env) : s'.trial env = s.trial env := by
  rw [FGraphSolve.trial, FGraphSolve.trial, h.gaussNewton]

theorem Quiet.params {s s' : FGraphSolve} (h : Quiet s s') (l t : ℝ) :
    Quiet { s with lambda := l, tol := t } { s' with lambda := l, tol := t } := by
  refine ⟨h.w, ?_⟩
  have hr := h.rest
  obtain ⟨w', lambda', tol', sys', mats'⟩ := s'
  obtain ⟨-, rfl, rfl, rfl, rfl⟩ := FGraphSolve.mk.inj hr
  rfl

/-- `solve` forgets what an earlier evaluation has stored. -/
theorem Quiet.solve {s s' : FGraphSolve} (h : Quiet s s') (env : Env) (m : Method) (k : ℕ) (l t : ℝ) :
    s'.solve env m k l t = s.solve env m k l t := by
  cases m with
  | GN =>
    change ((FGraphSolve.gaussNewton env false { s' with lambda := l, tol := t }) >>= _) =
      ((FGraphSolve.gaussNewton env false { s with lambda := l, tol := t }) >>= _)
    rw [(h.params l t).gaussNewton]
  | LM =>
    change (FGraphSolve.lmLoop env k 0 { s' with lambda := 1e-5, tol := t } >>= fun r => Out.ok r.s) =
      (FGraphSolve.lmLoop env k 0 { s with lambda := 1e-5, tol := t } >>= fun r => Out.ok r.s)
    rw [lmLoop, lmLoop, (h.params 1e-5 t).trial]

/-- The calls except `chi2`. -/
def Op.isChi2 : Op → Bool
  | .chi2 => true
  | _ => false

theorem Quiet.run {ops : List Op} : ∀ {s s' s₁ : FGraphSolve}, Quiet s s' → FGraphSolve.run ops s = .ok s₁ →
    ∃ s₁', FGraphSolve.run (ops.filter fun op => !op.isChi2) s' = .ok s₁' ∧ Quiet s₁ s₁' := by
  induction ops with
  | nil =>
    intro s s' s₁ h h1
    cases h1
    exact ⟨s', rfl, h⟩
  | cons op ops ih =>
    intro s s' s₁ h h1
    rw [FGraphSolve.run] at h1
    obtain ⟨s2, h2, h5⟩ := Out.bind_eq_ok.mp h1
    cases op with
    | graph g =>
      rw [List.filter_cons_of_pos rfl, FGraphSolve.run]
      obtain rfl := Out.ok.inj h2
      have e : (Op.graph g).run s' = .ok { s' with w := g.run s'.w } := rfl
      rw [e, Out.ok_bind]
      refine ih ⟨h.w.graphOp g, ?_⟩ h5
      have hr := h.rest
      obtain ⟨w', lambda', tol', sys', mats'⟩ := s'
      obtain ⟨-, rfl, rfl, rfl, rfl⟩ := FGraphSolve.mk.inj hr
      rfl
    | solve env m k l t =>
      rw [List.filter_cons_of_pos rfl, FGraphSolve.run]
      have e : (Op.solve env m k l t).run s' = .ok s2 := (h.solve env m k l t).trans h2
      rw [e, Out.ok_bind]
      exact ih (Quiet.refl s2) h5
    | chi2 =>
      rw [List.filter_cons_of_neg (by simp [Op.isChi2])]
      obtain ⟨⟨c, w₁⟩, h3, h6⟩ := Out.bind_eq_ok.mp h2
      obtain rfl := Out.ok.inj h6
      refine ih ⟨(World.quiet_chi2 h3).symm.trans h.w, ?_⟩ h5
      have hr := h.rest
      obtain ⟨w', lambda', tol', sys', mats'⟩ := s'
      obtain ⟨-, rfl, rfl, rfl, rfl⟩ := FGraphSolve.mk.inj hr
      rfl

end FGraphSolve

namespace OptDense

/-- A search that begins with an evaluation does not see an evaluation before it. -/
theorem solve_error {σ : Type} {P : DenseProblem σ} (hP : ∀ o c o', P.error o = .ok (c, o') → P.error o' = .ok (c, o'))
    {s s' : OptDense σ} {c : ℝ} (h : s.error P = .ok (c, s')) (m : OptMethod) (k : ℕ) (l : ℝ) :
    s'.solve P m k l = s.solve P m k l := by
  rw [error] at h
  obtain ⟨⟨c', o⟩, h1, h2⟩ := Out.bind_eq_ok.mp h
  obtain ⟨rfl, rfl⟩ := Prod.mk.inj (Out.ok.inj h2)
  have h3 := hP _ _ _ h1
  have key : ∀ m' k' l', error P { s with obj := o, method := m', maxIters := k', lambda := l' } =
      error P { s with method := m', maxIters := k', lambda := l' } := by
    intro m' k' l'
    rw [error, error]
    dsimp only
    rw [h3, h1]
  cases m with
  | newtonRaphson =>
    change newtonRaphson P { s with obj := o, method := .newtonRaphson, maxIters := k, lambda := s.lambda } =
      newtonRaphson P { s with method := .newtonRaphson, maxIters := k, lambda := s.lambda }
    rw [newtonRaphson, newtonRaphson, key]
  | lmSpher =>
    change levenbergMarquardt P { s with obj := o, method := .lmSpher, maxIters := k, lambda := l } =
      levenbergMarquardt P { s with method := .lmSpher, maxIters := k, lambda := l }
    rw [levenbergMarquardt, levenbergMarquardt, key]
  | lmEllip =>
    change levenbergMarquardt P { s with obj := o, method := .lmEllip, maxIters := k, lambda := l } =
      levenbergMarquardt P { s with method := .lmEllip, maxIters := k, lambda := l }
    rw [levenbergMarquardt, levenbergMarquardt, key]

end OptDense

theorem denseGraph_twice (w : World) (c : ℝ) (w' : World) (h : denseGraph.error w = .ok (c, w')) :
    denseGraph.error w' = .ok (c, w') := by
  have := (World.quiet_chi2 h).chi2Eval
  exact this.trans h

namespace Plane

theorem calcS_twice {s s₁ : Plane} (h : s.calcS false = .ok s₁) (Q : List Mat4) (acc : Option Mat4) (pl : Option Vec4) (la : ℝ) :
    calcS false { s₁ with Q := Q, accQ := acc, plane := pl, lambda := la } =
      .ok { s₁ with Q := Q, accQ := acc, plane := pl, lambda := la } := by
  rw [calcS, if_neg Bool.false_ne_true] at h ⊢
  dsimp only at h ⊢
  by_cases he : s.S.isEmpty = true
  · rw [if_pos he] at h
    obtain ⟨S, h1, h2⟩ := Out.bind_eq_ok.mp h
    obtain rfl := Out.ok.inj h2
    dsimp only
    by_cases h3 : S.isEmpty = true
    · rw [if_pos h3, h1]; rfl
    · rw [if_neg h3]
  · rw [if_neg he] at h
    obtain rfl := Out.ok.inj h
    rw [if_neg he]

theorem estimate_twice {e : EigSolver} {traj : List SE3} {s s₁ : Plane} {x : ℝ} (h : s.estimate e traj = .ok (x, s₁)) :
    s₁.estimate e traj = .ok (x, s₁) := by
  rw [estimate] at h ⊢
  obtain ⟨s2, h2, h3⟩ := Out.bind_eq_ok.mp h
  obtain ⟨s3, h4, h5⟩ := Out.bind_eq_ok.mp h3
  obtain ⟨rfl, rfl⟩ := Prod.mk.inj (Out.ok.inj h5)
  rw [calcQ] at h4
  obtain ⟨Q, h6, h7⟩ := Out.bind_eq_ok.mp h4
  obtain rfl := Out.ok.inj h7
  rw [calcS_twice h2 Q, Out.ok_bind, calcQ]
  have h8 : Out.traverse (rotS traj { s2 with
      Q := Q, accQ := some (Q.foldl (· + ·) 0), plane := some (firstVec (e.eig4 (Q.foldl (· + ·) 0))),
      lambda := (e.eig4 (Q.foldl (· + ·) 0)).val 0 }) (List.range s2.timeLength) = .ok Q := h6
  dsimp only
  rw [h8]
  rfl

end Plane

namespace PlaneReg

theorem traverse_twice {e : EigSolver} {traj : List SE3} : ∀ {l : List (ℕ × Plane)} {r : List (ℝ × ℕ × Plane)},
    Out.traverse (fun p : ℕ × Plane => p.2.estimate e traj >>= fun r => .ok (r.1, (p.1, r.2))) l = .ok r →
    Out.traverse (fun p : ℕ × Plane => p.2.estimate e traj >>= fun r => .ok (r.1, (p.1, r.2))) (r.map (·.2)) = .ok r := by
  intro l
  induction l with
  | nil => intro r h; cases h; rfl
  | cons q l ih =>
    intro r h
    rw [Out.traverse] at h
    obtain ⟨a, h1, h2⟩ := Out.bind_eq_ok.mp h
    obtain ⟨t, h3, h4⟩ := Out.bind_eq_ok.mp h2
    obtain rfl := Out.ok.inj h4
    obtain ⟨⟨x, p⟩, h5, h6⟩ := Out.bind_eq_ok.mp h1
    obtain rfl := Out.ok.inj h6
    rw [List.map_cons, Out.traverse]
    dsimp only
    rw [Plane.estimate_twice h5, Out.ok_bind, Out.ok_bind, ih h3]
    rfl

/-- An evaluation after an evaluation. -/
theorem error_twice {e : EigSolver} {s s₁ : PlaneReg} {c : ℝ} (h : s.error e = .ok (c, s₁)) (m : SolveMode) :
    PlaneReg.error e { s₁ with mode := m } = PlaneReg.error e { s with mode := m } := by
  rw [error] at h
  obtain ⟨⟨l, s2⟩, h1, h2⟩ := Out.bind_eq_ok.mp h
  obtain ⟨rfl, rfl⟩ := Prod.mk.inj (Out.ok.inj h2)
  rw [eachPlane] at h1
  obtain ⟨r, h3, h4⟩ := Out.bind_eq_ok.mp h1
  obtain ⟨rfl, rfl⟩ := Prod.mk.inj (Out.ok.inj h4)
  rw [error, error, eachPlane, eachPlane]
  dsimp only
  rw [traverse_twice h3, h3]

end PlaneReg

end Mrob
