import Verif.Lemmas.Dense
import Verif.Lemmas.Optimizer
import Verif.Lemmas.Proper

/-!
# The dense solver in the loops of `Optimizer`
-/

open Matrix

namespace Mrob

open World

theorem NodeCell.SameButObj.nbrs {a b : NodeCell} (h : NodeCell.SameButObj a b) : b.nbrs = a.nbrs := by
  obtain ⟨x, rfl⟩ := h; rfl

namespace World

/-- What the functions of the dense solver can change: stored evaluations of factors, and states of the nodes of the graph. -/
structure DenseFrame (w w' : World) : Prop where
  /-- graph and factors -/
  factors : SameFactors w w'
  /-- other nodes -/
  outside : ∀ n, n ∉ w.g.nodes → w'.nh n = w.nh n
  /-- nodes of the graph -/
  inside : ∀ n, NodeCell.SameButObj (w.nh n) (w'.nh n)

namespace DenseFrame

theorem refl (w : World) : DenseFrame w w := ⟨.refl w, fun _ _ => rfl, fun _ => .refl _⟩

theorem trans {a b c : World} (h : DenseFrame a b) (h' : DenseFrame b c) : DenseFrame a c :=
  ⟨h.factors.trans h'.factors, fun n hn => (h'.outside n (by rw [h.factors.g]; exact hn)).trans (h.outside n hn),
    fun n => (h.inside n).trans (h'.inside n)⟩

theorem denseWired {w w' : World} (h : DenseFrame w w') (hw : DenseWired w) : DenseWired w' := by
  have hF : Frame w w' := ⟨h.factors, fun n hn => h.outside n (by rw [hw.nodes]; exact hn), h.inside⟩
  refine ⟨hF.wired hw.wired, ?_, ?_, ?_⟩
  · rw [h.factors.g]; exact hw.nodes
  · intro f hf n hn
    rw [h.factors.g] at hf ⊢
    rw [h.factors.nbrs] at hn
    exact hw.reg f hf n hn
  · intro n hn
    rw [h.factors.g] at hn ⊢
    rw [(h.inside n).nbrs]
    simp only [h.factors.nbrs]
    exact hw.nbrs n hn

end DenseFrame

theorem denseBookkeep_eq (w : World) : w.denseBookkeep =
    { w with nh := fun n => if n ∈ w.g.nodes then (w.nh n).bookkeep else w.nh n } :=
  foldl_setN _ NodeCell.bookkeep_bookkeep _ _

theorem denseRestore_eq (w : World) : w.denseRestore =
    { w with nh := fun n => if n ∈ w.g.nodes then (w.nh n).restore else w.nh n } :=
  foldl_setN _ NodeCell.restore_restore _ _

theorem denseBookkeep_frame (w : World) : DenseFrame w w.denseBookkeep := by
  rw [denseBookkeep_eq]
  refine ⟨⟨rfl, fun _ => rfl, fun _ => rfl, fun _ => rfl⟩, fun n hn => if_neg hn, fun n => ?_⟩
  change NodeCell.SameButObj _ (if n ∈ w.g.nodes then (w.nh n).bookkeep else w.nh n)
  split
  · exact ⟨_, rfl⟩
  · exact .refl _

theorem denseRestore_frame (w : World) : DenseFrame w w.denseRestore := by
  rw [denseRestore_eq]
  refine ⟨⟨rfl, fun _ => rfl, fun _ => rfl, fun _ => rfl⟩, fun n hn => if_neg hn, fun n => ?_⟩
  change NodeCell.SameButObj _ (if n ∈ w.g.nodes then (w.nh n).restore else w.nh n)
  split
  · exact ⟨_, rfl⟩
  · exact .refl _

theorem denseGradHess_ok {w w' : World} {e : NormalEq} (h : w.denseGradHess = .ok (e, w')) :
    w' = DenseWired.evaled w ∧ (∀ f ∈ w.g.factors, (w.fh f).wellTyped w.nh) ∧ e.N = w.g.stateDim := by
  rw [denseGradHess] at h
  obtain ⟨w1, h1, h⟩ := Out.bind_eq_ok.mp h
  have ht := forAll_evalFull_ok _ _ _ h1
  rw [forAll_evalFull _ _ ht, Out.ok.injEq] at h1
  subst h1
  obtain ⟨a, h2, h⟩ := Out.bind_eq_ok.mp h
  simp only [Out.pure_eq, Out.ok.injEq, Prod.mk.injEq] at h
  obtain ⟨rfl, rfl⟩ := h
  exact ⟨rfl, ht, rfl⟩

theorem evaled_frame (w : World) : DenseFrame w (DenseWired.evaled w) :=
  ⟨sameFactors_mapF (φ := (·.full w.nh)) (fun _ => rfl) (fun _ => rfl) (fun _ => rfl) _ _, fun _ _ => rfl, fun _ => .refl _⟩

theorem denseUpdate_ok {N : ℕ} {dx : Fin N → ℝ} {w w' : World} (h : w.denseUpdate N dx = .ok w') :
    DenseFrame w w' ∧ w'.fh = w.fh ∧ ∀ n, NodeCell.SameButState (w.nh n) (w'.nh n) := by
  obtain ⟨h1, h2, h3, h4⟩ := updateNodes_ok _ _ _ _ _ h
  refine ⟨⟨⟨h1, fun f => ?_, fun f => ?_, fun f => ?_⟩, h3, fun n => (h4 n).toObj⟩, h2, h4⟩ <;> rw [h2]

theorem chi2Eval_ok {w w' : World} {c : ℝ} (h : w.chi2Eval = .ok (c, w')) :
    (∀ f ∈ w.g.factors, (w.fh f).wellTyped w.nh) ∧ c = w.cost ∧ w'.nh = w.nh ∧ DenseFrame w w' := by
  have ht : ∀ f ∈ w.g.factors, (w.fh f).wellTyped w.nh := by
    rw [chi2Eval] at h
    obtain ⟨w4, h4, -⟩ := Out.bind_eq_ok.mp h
    exact forAll_evalRes_ok _ _ _ h4
  rw [chi2Eval_eq w ht, Out.ok.injEq, Prod.mk.injEq] at h
  obtain ⟨rfl, rfl⟩ := h
  exact ⟨ht, rfl, rfl, sameFactors_mapF (φ := (·.resd w.nh)) (fun _ => rfl) (fun _ => rfl) (fun _ => rfl) _ _,
    fun _ _ => rfl, fun _ => .refl _⟩

/-- Classes of the neighbours and behaviour of the residuals. -/
def DenseInv (w : World) : Prop := (∀ f ∈ w.g.factors, (w.fh f).wellTyped w.nh) ∧
  ∀ f ∈ w.g.factors, (w.fh f).virt.HeadingInvariant

theorem DenseFrame.inv {w w' : World} (h : DenseFrame w w') (hi : DenseInv w) : DenseInv w' := by
  refine ⟨fun f hf => ?_, fun f hf => ?_⟩ <;> rw [h.factors.g] at hf
  · have := hi.1 f hf
    rw [FactorCell.wellTyped] at this ⊢
    rw [h.factors.nbrs, h.factors.virt, ← this]
    exact List.map_congr_left fun n _ => (h.inside n).kind
  · rw [h.factors.virt]; exact hi.2 f hf

/-- The cost is the same after reducing headings. -/
theorem cost_stored {w w' : World} (h : SameFactors w w') (hi : DenseInv w)
    (hv : ∀ n, (w'.nh n).val = (w.nh n).val ∨ (w'.nh n).val = (w.nh n).val.stored) : w'.cost = w.cost := by
  refine cost_congr h fun f hf => ?_
  refine hi.2 f hf _ ?_ _ ?_
  · rw [List.map_map]; exact hi.1 f hf
  · rw [List.forall₂_map_left_iff, List.forall₂_map_right_iff]
    exact List.forall₂_same.mpr fun n _ => hv n

/-- The dense graph solver meets the contract of the optimiser. -/
theorem denseGraph_contract : denseGraph.Contract DenseInv World.cost fun w => w.denseRestore.cost := by
  have hsaved : ∀ {w w' : World}, DenseFrame w w' → (∀ n ∈ w.g.nodes, NodeCell.SameButState (w.nh n) (w'.nh n)) →
      w'.denseRestore.cost = w.denseRestore.cost := by
    intro w w' hF hs
    refine cost_congr_nh ?_ fun n => ?_
    · rw [denseRestore_eq, denseRestore_eq]
      exact ⟨hF.factors.g, hF.factors.virt, hF.factors.nbrs, hF.factors.id⟩
    · rw [denseRestore_eq, denseRestore_eq]
      dsimp only
      rw [hF.factors.g]
      split
      · rename_i hn
        obtain ⟨x, hx⟩ := hs n hn
        rw [hx]; rfl
      · rename_i hn
        rw [hF.outside n hn]
  refine ⟨fun o c o' hi h => ?_, fun o o' hi h => ?_, fun o e o' hi h => ?_, fun N dx o o' hi h => ?_, fun o o' hi h => ?_⟩
  · obtain ⟨ht, hc, hn, hF⟩ := chi2Eval_ok h
    refine ⟨hc, cost_congr_nh hF.factors fun n => by rw [hn], hsaved hF fun n _ => by rw [hn]; exact .refl _, hF.inv hi⟩
  · obtain rfl := Out.ok.inj h
    have hF := denseBookkeep_frame o
    refine ⟨cost_stored (hF.trans (denseRestore_frame _)).factors hi fun n => ?_, hF.inv hi⟩
    change (o.denseBookkeep.denseRestore.nh n).val = _ ∨ (o.denseBookkeep.denseRestore.nh n).val = _
    rw [denseRestore_eq, denseBookkeep_eq]
    dsimp only
    by_cases hn : n ∈ o.g.nodes
    · rw [if_pos hn, if_pos hn]
      right
      exact NodeCell.roundTrip_val _
    · rw [if_neg hn, if_neg hn]; left; rfl
  · obtain ⟨rfl, ht, -⟩ := denseGradHess_ok h
    exact ⟨hsaved (evaled_frame o) fun n _ => .refl _, (evaled_frame o).inv hi⟩
  · obtain ⟨hF, -, hs⟩ := denseUpdate_ok h
    exact ⟨hsaved hF fun n _ => hs n, hF.inv hi⟩
  · obtain rfl := Out.ok.inj h
    refine ⟨rfl, ?_, (denseRestore_frame o).inv hi⟩
    refine cost_congr_nh (denseRestore_frame _).factors fun n => ?_
    change (o.denseRestore.denseRestore.nh n).val = (o.denseRestore.nh n).val
    rw [denseRestore_eq o.denseRestore, denseRestore_eq o]
    dsimp only
    by_cases hn : n ∈ o.g.nodes
    · rw [if_pos hn, if_pos hn, NodeCell.restore_restore]
    · rw [if_neg hn, if_neg hn]

end World

/-! ### Steps on consistent graphs without anchors -/

namespace OptDense

theorem denseUpdate_total {w : World} (hw : DenseWired w) (dx : Fin w.g.stateDim → ℝ) :
    ∃ w', w.denseUpdate w.g.stateDim dx = .ok w' := by
  refine ⟨_, updateNodes_eq _ _ 0 w (by rw [hw.nodes]; exact hw.wired.active_nodup) ?_⟩
  rw [Nat.zero_add, hw.nodes]; exact hw.wired.stateDim.ge

open Classical in
/-- One iteration either returns or meets a singular matrix. -/
theorem oneIteration_dense {s : OptDense World} (hw : DenseWired s.obj) (b : Bool) :
    (∃ s', s.oneIteration denseGraph b = .ok s' ∧ DenseFrame s.obj s'.obj) ∨
      (s.oneIteration denseGraph b = .nan ∧ ∃ e w, s.obj.denseGradHess = .ok (e, w) ∧
        ¬ IsUnit (if b then damp s.method s.lambda e.H else e.H).det) := by
  obtain ⟨H, g, h1, -, -⟩ := hw.gradHess
  have hF := evaled_frame s.obj
  by_cases hu : IsUnit (if b then damp s.method s.lambda H else H).det
  · left
    obtain ⟨w', h2⟩ := denseUpdate_total (hF.denseWired hw) (-((if b then damp s.method s.lambda H else H)⁻¹ *ᵥ g))
    refine ⟨⟨w', s.method, s.tol, s.maxIters, s.lambda, ⟨_, if b then damp s.method s.lambda H else H, g,
      -((if b then damp s.method s.lambda H else H)⁻¹ *ᵥ g)⟩⟩, ?_, hF.trans (denseUpdate_ok h2).1⟩
    rw [oneIteration]
    change (s.obj.denseGradHess >>= _) = _
    rw [h1, Out.ok_bind]
    dsimp only
    rw [if_pos hu]
    change (World.denseUpdate (DenseWired.evaled s.obj).g.stateDim _ _ >>= _) = _
    rw [h2]
    rfl
  · right
    refine ⟨?_, _, _, h1, hu⟩
    rw [oneIteration]
    change (s.obj.denseGradHess >>= _) = _
    rw [h1, Out.ok_bind]
    dsimp only
    rw [if_neg hu]

theorem error_dense {s : OptDense World} (hw : DenseWired s.obj) :
    ∃ c s', s.error denseGraph = .ok (c, s') ∧ DenseFrame s.obj s'.obj := by
  have h := chi2Eval_eq s.obj hw.wired.typed
  refine ⟨s.obj.cost, { s with obj := _ }, ?_, (chi2Eval_ok h).2.2.2⟩
  rw [error]
  change (s.obj.chi2Eval >>= _) = _
  rw [h]
  rfl

theorem nrStep_dense {s : OptDense World} (hw : DenseWired s.obj) :
    (∃ c s', s.nrStep denseGraph = .ok (c, s') ∧ DenseFrame s.obj s'.obj) ∨ s.nrStep denseGraph = .nan := by
  rw [nrStep]
  rcases oneIteration_dense hw false with ⟨s', h1, hF⟩ | ⟨h1, -⟩
  · obtain ⟨c, s2, h2, hF2⟩ := error_dense (hF.denseWired hw)
    left
    exact ⟨c, s2, by rw [h1, Out.ok_bind, h2], hF.trans hF2⟩
  · right; rw [h1, Out.nan_bind]

theorem nrLoop_dense (maxIters : ℕ) : ∀ (k iters : ℕ) (prev : ℝ) (s : OptDense World), maxIters - iters = k →
    DenseWired s.obj → nrLoop denseGraph maxIters iters prev s ≠ .ub := by
  intro k
  induction k using Nat.strong_induction_on with
  | _ k ih =>
    intro iters prev s hk hw
    rw [nrLoop]
    rcases nrStep_dense hw with ⟨c, s', h1, hF⟩ | h1
    · rw [h1, Out.ok_bind]
      dsimp only
      split_ifs
      · exact ih _ (by omega) _ _ _ rfl (hF.denseWired hw)
      · simp
    · rw [h1, Out.nan_bind]; simp

theorem lmStep_dense {s : OptDense World} (hw : DenseWired s.obj) :
    (∃ c s', s.lmStep denseGraph = .ok (c, s') ∧ DenseFrame s.obj s'.obj) ∨
      (s.lmStep denseGraph = .nan ∧ ∃ e w, s.obj.denseBookkeep.denseGradHess = .ok (e, w) ∧
        ¬ IsUnit (damp s.method s.lambda e.H).det) := by
  have hB := denseBookkeep_frame s.obj
  rw [lmStep, show denseGraph.bookkeep s.obj = .ok s.obj.denseBookkeep from rfl, Out.ok_bind]
  rcases oneIteration_dense (s := { s with obj := s.obj.denseBookkeep }) (hB.denseWired hw) true with
    ⟨s', h1, hF⟩ | ⟨h1, e, w, h2, h3⟩
  · obtain ⟨c, s2, h2, hF2⟩ := error_dense (hF.denseWired (hB.denseWired hw))
    left
    exact ⟨c, s2, by rw [h1, Out.ok_bind, h2], (hB.trans hF).trans hF2⟩
  · right
    exact ⟨by rw [h1, Out.nan_bind], e, w, h2, by simpa using h3⟩

theorem finish_dense {s : OptDense World} (hw : DenseWired s.obj) (b : Bool) (k : ℕ) :
    ∃ r, s.finish denseGraph b k = .ok r := by
  rw [finish]
  obtain ⟨x, hx, hw'⟩ : ∃ x, (if b then Out.ok s.obj else denseGraph.restore s.obj) = .ok x ∧ DenseWired x := by
    cases b
    · exact ⟨_, rfl, (denseRestore_frame _).denseWired hw⟩
    · exact ⟨_, rfl, hw⟩
  obtain ⟨c, s', h, -⟩ := error_dense (s := { s with obj := x }) hw'
  rw [hx, Out.ok_bind, h]
  exact ⟨_, rfl⟩

theorem lmLoop_dense (maxIters : ℕ) : ∀ (k iters : ℕ) (prev : ℝ) (s : OptDense World), maxIters - iters = k →
    DenseWired s.obj → lmLoop denseGraph maxIters iters prev s ≠ .ub := by
  intro k
  induction k using Nat.strong_induction_on with
  | _ k ih =>
    intro iters prev s hk hw
    rw [lmLoop]
    rcases lmStep_dense hw with ⟨c, s', h1, hF⟩ | ⟨h1, -⟩
    · have hw' := hF.denseWired hw
      have hwr : DenseWired s'.obj.denseRestore := (denseRestore_frame _).denseWired hw'
      rw [h1, Out.ok_bind]
      dsimp only
      rw [show s'.reject denseGraph = .ok { s' with lambda := s'.lambda * 2, obj := s'.obj.denseRestore } from rfl]
      simp only [Out.ok_bind]
      split_ifs
      · exact ih _ (by omega) _ _ _ rfl hwr
      · obtain ⟨r, hr⟩ := finish_dense (s := { s' with lambda := s'.lambda * 2, obj := s'.obj.denseRestore }) hwr false (iters + 1)
        rw [hr]; simp
      · simp
      · exact ih _ (by omega) _ _ _ rfl hw'
      · obtain ⟨r, hr⟩ := finish_dense (s := s'.adapt (prev - c)) hw' true (iters + 1)
        rw [hr]; simp
    · rw [h1, Out.nan_bind]; simp

/-! ### Spherical damping of positive semidefinite problems -/

theorem damp_spher_posDef {N : ℕ} {H : Matrix (Fin N) (Fin N) ℝ} (h : H.PosSemidef) {lambda : ℝ} (hl : 0 < lambda) :
    (damp .lmSpher lambda H).PosDef := by
  have e : damp .lmSpher lambda H = FGraphSolve.damped true lambda H := by
    ext i j
    rw [FGraphSolve.damped, if_pos rfl]
    by_cases hij : i = j
    · subst hij; simp [damp]
    · simp [damp, hij]
  rw [e]
  exact FGraphSolve.damped_posDef h hl

theorem hessian_psd {w : World} (hw : DenseWired w) (hp : ∀ f ∈ w.g.factors, (w.fh f).virt.W.PosSemidef)
    {e : NormalEq} {w' : World} (h : w.denseGradHess = .ok (e, w')) : e.H.PosSemidef := by
  obtain ⟨H, g, h1, h2, -⟩ := hw.gradHess
  rw [h1, Out.ok.injEq, Prod.mk.injEq] at h
  obtain ⟨rfl, -⟩ := h
  have h3 : (Spec.infoMatrix (w.g.factors.map (plainTerm w))).PosSemidef := by
    refine infoMatrix_posSemidef _ fun t ht => ?_
    obtain ⟨f, hf, rfl⟩ := List.mem_map.mp ht
    exact hp f hf
  rw [← h2] at h3
  exact (Matrix.posSemidef_submatrix_equiv _).mp h3

/-- What keeps the spherical variant going. -/
structure SpherOK (s : OptDense World) : Prop where
  wired : DenseWired s.obj
  psd : ∀ f ∈ s.obj.g.factors, (s.obj.fh f).virt.W.PosSemidef
  lambda : 0 < s.lambda
  method : s.method = .lmSpher

theorem psd_frame {w w' : World} (hF : DenseFrame w w') (h : ∀ f ∈ w.g.factors, (w.fh f).virt.W.PosSemidef) :
    ∀ f ∈ w'.g.factors, (w'.fh f).virt.W.PosSemidef := by
  intro f hf
  rw [hF.factors.g] at hf
  rw [hF.factors.virt]; exact h f hf

theorem lmStep_spher {s : OptDense World} (hs : SpherOK s) :
    ∃ c s', s.lmStep denseGraph = .ok (c, s') ∧ SpherOK s' := by
  rcases lmStep_dense hs.wired with ⟨c, s', h1, hF⟩ | ⟨-, e, w, h2, h3⟩
  · obtain ⟨-, -, f3, f4⟩ := lmStep_frame h1
    exact ⟨c, s', h1, hF.denseWired hs.wired, psd_frame hF hs.psd, by rw [f4]; exact hs.lambda, by rw [f3]; exact hs.method⟩
  · exfalso
    apply h3
    have hB := denseBookkeep_frame s.obj
    have := hessian_psd (hB.denseWired hs.wired) (psd_frame hB hs.psd) h2
    rw [hs.method]
    exact isUnit_iff_ne_zero.mpr (damp_spher_posDef this hs.lambda).det_pos.ne'

theorem lmLoop_spher (maxIters : ℕ) : ∀ (k iters : ℕ) (prev : ℝ) (s : OptDense World), maxIters - iters = k →
    SpherOK s → ∃ r, lmLoop denseGraph maxIters iters prev s = .ok r := by
  intro k
  induction k using Nat.strong_induction_on with
  | _ k ih =>
    intro iters prev s hk hs
    obtain ⟨c, s', h1, hs'⟩ := lmStep_spher hs
    have hwr : DenseWired s'.obj.denseRestore := (denseRestore_frame _).denseWired hs'.wired
    rw [lmLoop, h1, Out.ok_bind]
    dsimp only
    rw [show s'.reject denseGraph = .ok { s' with lambda := s'.lambda * 2, obj := s'.obj.denseRestore } from rfl]
    simp only [Out.ok_bind]
    split_ifs
    · refine ih _ (by omega) _ _ _ rfl ⟨hwr, psd_frame (denseRestore_frame _) hs'.psd, ?_, hs'.method⟩
      change 0 < s'.lambda * 2
      have := hs'.lambda
      linarith
    · exact finish_dense (s := { s' with lambda := s'.lambda * 2, obj := s'.obj.denseRestore }) hwr false (iters + 1)
    · exact ⟨_, rfl⟩
    · exact ih _ (by omega) _ _ _ rfl ⟨hs'.wired, hs'.psd, FGraphSolve.nextLambda_pos hs'.lambda, hs'.method⟩
    · exact finish_dense (s := s'.adapt (prev - c)) hs'.wired true (iters + 1)

end OptDense

end Mrob

namespace Mrob

namespace World

theorem updateNodes_fits {N : ℕ} (dx : Fin N → ℝ) (ns : List NRef) : ∀ (acc : ℕ) (w w' : World), acc ≤ N →
    updateNodes dx acc ns w = .ok w' → acc + total (fun n => (w.nh n).dim) ns ≤ N := by
  induction ns with
  | nil => intro acc w w' ha _; simpa [total] using ha
  | cons a ns ih =>
    intro acc w w' ha h
    rw [updateNodes] at h
    split at h
    · rename_i hc
      have := ih _ _ _ hc h
      have hdim : (fun n => ((w.setN a ((w.nh a).update fun k => -dxBlock dx acc k)).nh n).dim) = fun n => (w.nh n).dim := by
        funext n
        by_cases hn : n = a
        · subst hn; simp [setN]; rfl
        · simp [setN, hn]
      rw [hdim] at this
      simp only [total, List.map_cons, List.sum_cons] at this ⊢
      omega
    · simp at h

end World

open World

/-- A step of the dense solver needs as many coordinates as the nodes have. -/
theorem OptDense.oneIteration_fits {s s' : OptDense World} {b : Bool} (h : s.oneIteration denseGraph b = .ok s') :
    total (fun n => (s.obj.nh n).dim) s.obj.g.nodes ≤ s.obj.g.stateDim := by
  obtain ⟨e, o, o', sys, h1, h2, -, -⟩ := OptDense.oneIteration_ok h
  obtain ⟨rfl, -, hN⟩ := denseGradHess_ok h1
  have := updateNodes_fits _ _ _ _ _ (Nat.zero_le _) h2
  rw [Nat.zero_add, hN] at this
  exact this

/-- A call of `solve` that returns begins with a step from the given states. -/
theorem OptDense.solve_first {σ : Type} {P : DenseProblem σ} {s : OptDense σ} {m : OptMethod} {k : ℕ} {lambda : ℝ}
    {r : ℕ × OptDense σ} (h : s.solve P m k lambda = .ok r) :
    ∃ (c : ℝ) (x : σ) (t t' : OptDense σ) (b : Bool), P.error s.obj = .ok (c, x) ∧ t.oneIteration P b = .ok t' ∧
      (t.obj = x ∨ P.bookkeep x = .ok t.obj) := by
  have lm : ∀ s : OptDense σ, OptDense.levenbergMarquardt P s = .ok r →
      ∃ (c : ℝ) (x : σ) (t t' : OptDense σ) (b : Bool), P.error s.obj = .ok (c, x) ∧ t.oneIteration P b = .ok t' ∧
      (t.obj = x ∨ P.bookkeep x = .ok t.obj) := by
    intro s h
    rw [OptDense.levenbergMarquardt] at h
    obtain ⟨⟨c, s1⟩, h1, h⟩ := Out.bind_eq_ok.mp h
    obtain ⟨x, h2, rfl⟩ := OptDense.error_ok h1
    change OptDense.lmLoop P _ 0 c _ = _ at h
    rw [OptDense.lmLoop] at h
    obtain ⟨⟨c2, s2⟩, h3, -⟩ := Out.bind_eq_ok.mp h
    rw [OptDense.lmStep] at h3
    obtain ⟨y, h5, h3⟩ := Out.bind_eq_ok.mp h3
    obtain ⟨t', h4, -⟩ := Out.bind_eq_ok.mp h3
    exact ⟨c, x, _, t', _, h2, h4, Or.inr h5⟩
  cases m
  · change OptDense.newtonRaphson P { s with method := .newtonRaphson, maxIters := k } = _ at h
    rw [OptDense.newtonRaphson] at h
    obtain ⟨⟨c, s1⟩, h1, h⟩ := Out.bind_eq_ok.mp h
    obtain ⟨x, h2, rfl⟩ := OptDense.error_ok h1
    change OptDense.nrLoop P _ 0 c _ = _ at h
    rw [OptDense.nrLoop] at h
    obtain ⟨⟨c2, s2⟩, h3, -⟩ := Out.bind_eq_ok.mp h
    rw [OptDense.nrStep] at h3
    obtain ⟨t', h4, -⟩ := Out.bind_eq_ok.mp h3
    exact ⟨c, x, _, t', _, h2, h4, Or.inl rfl⟩
  · exact lm { s with method := .lmSpher, maxIters := k, lambda := lambda } h
  · exact lm { s with method := .lmEllip, maxIters := k, lambda := lambda } h

/-- Two planar poses without anchors: a prior on each (at 0 and at 3 on the first axis) and a relative factor saying that
they are the same. -/
noncomputable def Demo.denseWorld (x y : Vec3) : World where
  nh n := NodeCell.new .pose2d (if n = 0 then x else y) .standard
  fh f := if f = 0 then FactorCell.new (.prior2d 0 1 .quadratic) [0] 0 0
    else if f = 1 then FactorCell.new (.prior2d ![3, 0, 0] 1 .quadratic) [1] 0 0
    else FactorCell.new (.rel2d 0 1 .quadratic) [0, 1] 0 0
  g := emptyGraph

/-- The calls that build the graph. -/
def Demo.denseOps : List GraphOp := [.addNode 0, .addNode 1, .addFactor 0, .addFactor 1, .addFactor 2]

theorem Demo.denseProper (x y : Vec3) : Proper (Demo.denseWorld x y) Demo.denseOps := by
  constructor
  · intro op hop n m; simp [denseOps] at hop; rcases hop with rfl | rfl | rfl | rfl | rfl <;> simp
  · simp [addedNodes, denseOps]
  · intro n hn; simp [denseWorld, NodeCell.new]
  · intro f hf n hn
    simp [addedFactors, denseOps] at hf
    rcases hf with rfl | rfl | rfl <;> simp [denseWorld, FactorCell.new] at hn <;> left
    · simp [hn, addedNodes, denseOps]
    · simp [hn, addedNodes, denseOps]
    · rcases hn with rfl | rfl <;> simp [addedNodes, denseOps]
  · intro f hf
    simp [addedFactors, denseOps] at hf
    rcases hf with rfl | rfl | rfl <;> simp [denseWorld, FactorCell.new, NodeCell.new]
  · intro f hf
    simp [addedFactors, denseOps] at hf
    rcases hf with rfl | rfl | rfl <;>
      simp [denseWorld, FactorCell.new, NodeCell.new, FactorCell.wellTyped, FactorVirt.prior2d, FactorVirt.rel2d]

theorem Demo.dense_quadratic (x y : Vec3) (f : FRef) : ((Demo.denseWorld x y).fh f).virt.robust = .quadratic ∧
    ((Demo.denseWorld x y).fh f).virt.W.PosDef ∧ ((Demo.denseWorld x y).fh f).virt.Library := by
  by_cases h0 : f = 0
  · subst h0
    exact ⟨rfl, Matrix.PosDef.one (R := ℝ) (n := Fin 3), .prior2d _ _ _⟩
  · by_cases h1 : f = 1
    · subst h1
      exact ⟨rfl, Matrix.PosDef.one (R := ℝ) (n := Fin 3), .prior2d _ _ _⟩
    · have e : (Demo.denseWorld x y).fh f = FactorCell.new (.rel2d 0 1 .quadratic) [0, 1] 0 0 := by
        simp only [Demo.denseWorld, if_neg h0, if_neg h1]
      rw [e]
      exact ⟨rfl, Matrix.PosDef.one (R := ℝ) (n := Fin 3), .rel2d _ _ _⟩

end Mrob
