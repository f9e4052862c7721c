import Verif.Lemmas.Landmarks
import Verif.Spec.Damped

/-! # The damping of the Levenberg-Marquardt loop -/

open Matrix

namespace Spec

variable {C : Type} [Fintype C]

/-- Completing the square. -/
theorem dampedCost_eq (ts : List (Term C)) (hs : ∀ t ∈ ts, t.W.IsSymm) {l : ℝ} (x : C → ℝ)
    (hx : infoMatrix ts *ᵥ x + l • x = infoVector ts) (δ : C → ℝ) :
    dampedCost ts l δ = dampedCost ts l (-x) + (δ + x) ⬝ᵥ (infoMatrix ts *ᵥ (δ + x)) / 2 + l * ((δ + x) ⬝ᵥ (δ + x)) / 2 := by
  have h1 : δ ⬝ᵥ δ = (δ + x) ⬝ᵥ (δ + x) - 2 * ((δ + x) ⬝ᵥ x) + x ⬝ᵥ x := by
    simp only [add_dotProduct, dotProduct_add, dotProduct_comm x δ]
    ring
  rw [dampedCost, dampedCost, linearCost_at ts hs x δ, ← hx, add_sub_cancel_left, dotProduct_smul, smul_eq_mul, neg_dotProduct,
    dotProduct_neg, neg_neg, h1]
  ring

/-- The promise of the damped step. -/
theorem promised_eq (ts : List (Term C)) (hs : ∀ t ∈ ts, t.W.IsSymm) {l : ℝ} (x : C → ℝ)
    (hx : infoMatrix ts *ᵥ x + l • x = infoVector ts) : promised ts l (-x) = x ⬝ᵥ infoVector ts / 2 := by
  rw [promised, dampedCost_eq ts hs x hx 0, zero_add, ← hx, dotProduct_add, dotProduct_smul, smul_eq_mul]
  ring

/-- The linearised cost falls by more than promised. -/
theorem linearCost_drop (ts : List (Term C)) (hs : ∀ t ∈ ts, t.W.IsSymm) {l : ℝ} (x : C → ℝ)
    (hx : infoMatrix ts *ᵥ x + l • x = infoVector ts) :
    linearCost ts 0 - linearCost ts (-x) = l * (x ⬝ᵥ x) + x ⬝ᵥ (infoMatrix ts *ᵥ x) / 2 := by
  rw [linearCost_at ts hs x 0, ← hx, zero_add, add_sub_cancel_left, dotProduct_smul, smul_eq_mul]
  ring

theorem dot_self_nonneg (x : C → ℝ) : 0 ≤ x ⬝ᵥ x := Finset.sum_nonneg fun _ _ => mul_self_nonneg _

/-- After a damped step the linearised cost is close to its minimum. -/
theorem linearCost_near (ts : List (Term C)) (hs : ∀ t ∈ ts, t.W.IsSymm) {l μ : ℝ} (hl : 0 < l) (hm : 0 < μ) (x : C → ℝ)
    (hx : infoMatrix ts *ᵥ x + l • x = infoVector ts)
    (hμ : ∀ δ : C → ℝ, μ * (δ ⬝ᵥ δ) ≤ δ ⬝ᵥ (infoMatrix ts *ᵥ δ)) (δ : C → ℝ) :
    linearCost ts (-x) ≤ linearCost ts δ + l * (linearCost ts 0 - linearCost ts (-x)) / (2 * μ) := by
  have h1 := linearCost_at ts hs x δ
  rw [← hx, add_sub_cancel_left, dotProduct_smul, smul_eq_mul] at h1
  have h2 := hμ (δ + x)
  have h3 := hμ x
  have h4 := linearCost_drop ts hs x hx
  set d := linearCost ts 0 - linearCost ts (-x) with hd
  have h5 : l * (x ⬝ᵥ x) ≤ d := by
    have := mul_nonneg hm.le (dot_self_nonneg x)
    linarith
  have h6 : 0 ≤ (μ • (δ + x) + l • x) ⬝ᵥ (μ • (δ + x) + l • x) := dot_self_nonneg _
  have h7 : (μ • (δ + x) + l • x) ⬝ᵥ (μ • (δ + x) + l • x) =
      μ ^ 2 * ((δ + x) ⬝ᵥ (δ + x)) + 2 * μ * l * ((δ + x) ⬝ᵥ x) + l ^ 2 * (x ⬝ᵥ x) := by
    rw [add_dotProduct, dotProduct_add, dotProduct_add]
    simp only [smul_dotProduct, dotProduct_smul, smul_eq_mul, dotProduct_comm x (δ + x)]
    ring
  rw [h7] at h6
  have h8 : l ^ 2 * (x ⬝ᵥ x) ≤ l * d := by nlinarith
  have h9 : -(l * d) / (2 * μ) ≤ l * ((δ + x) ⬝ᵥ x) + μ * ((δ + x) ⬝ᵥ (δ + x)) / 2 := by
    rw [div_le_iff₀ (by positivity)]
    nlinarith
  rw [h1]
  have : l * d / (2 * μ) = -(-(l * d) / (2 * μ)) := by ring
  linarith

end Spec

namespace Mrob

open World

theorem sum_subset_list {α : Type} [DecidableEq α] (q : α → ℝ) (l : List α) (hq : ∀ f ∈ l, 0 ≤ q f) (S : Finset α) (hS : ∀ f ∈ S, f ∈ l) :
    ∑ f ∈ S, q f ≤ (l.map q).sum := by
  induction l generalizing S with
  | nil =>
    have : S = ∅ := Finset.eq_empty_of_forall_notMem fun f hf => absurd (hS f hf) (by simp)
    rw [this]
    simp
  | cons a l ih =>
    rw [List.map_cons, List.sum_cons]
    have h1 := ih (fun f hf => hq f (List.mem_cons_of_mem _ hf)) (S.erase a) fun f hf =>
      (List.mem_cons.mp (hS f (Finset.mem_of_mem_erase hf))).resolve_left (Finset.ne_of_mem_erase hf)
    have h2 : ∑ f ∈ S, q f ≤ q a + ∑ f ∈ S.erase a, q f := by
      by_cases ha : a ∈ S
      · rw [Finset.add_sum_erase S q ha]
      · rw [Finset.erase_eq_of_notMem ha]
        have := hq a List.mem_cons_self
        linarith
    linarith

namespace World

/-- Frames may be read backwards. -/
theorem Frame.symm {w w' : World} (h : Frame w w') : Frame w' w :=
  ⟨⟨h.factors.g.symm, fun f => (h.factors.virt f).symm, fun f => (h.factors.nbrs f).symm, fun f => (h.factors.id f).symm⟩,
    fun n hn => (h.inactive n (by rwa [h.factors.g] at hn)).symm, fun n => by
      have h1 := h.active n
      generalize w.nh n = c at h1 ⊢
      generalize w'.nh n = c' at h1 ⊢
      obtain ⟨o, rfl⟩ := h1
      exact ⟨c.obj, rfl⟩⟩

end World

namespace LandmarkGraph

theorem of_frame {w w' : World} (h : LandmarkGraph w) (hF : Frame w w') : LandmarkGraph w' :=
  ⟨fun f hf => by
    rw [hF.factors.virt]
    exact h.factors f (by rwa [hF.factors.g] at hf), fun n hn => (hF.active n).kind.trans (h.nodes n (by rwa [hF.factors.g] at hn))⟩

theorem quadratic {w : World} (h : LandmarkGraph w) : ∀ f ∈ w.g.factors, (w.fh f).virt.robust = .quadratic := fun f hf => by
  obtain ⟨obs, W, rev, hv⟩ := h.factors f hf
  rw [hv]; rfl

/-- Every unknown landmark is seen from a pose with a rotation, with an information of at least `μ` in all directions. -/
def Seen (w : World) (μ : ℝ) : Prop := ∀ n ∈ w.g.active, ∃ f ∈ w.g.factors, n ∈ (w.fh f).nbrs ∧
  (∀ v : Fin (w.fh f).virt.dim → ℝ, μ * (v ⬝ᵥ v) ≤ v ⬝ᵥ ((w.fh f).virt.W *ᵥ v)) ∧
  ∀ m ∈ (w.fh f).nbrs, ∀ X : SE3, (w.nh m).val = ⟨.pose3d, X⟩ → Spec.IsRotation X.R

theorem inv_R_eq (a : SE3) : a.inv.R = a.Rᵀ := tl3_homog _ _ _

theorem land3d_sub (obs : Vec3) (X : SE3) (p d : Vec3) :
    (fun l => land3dRes obs X (p + d) l - land3dRes obs X p l) = X.inv.R *ᵥ d := by
  funext l
  rw [land3dRes_add, Pi.add_apply, add_sub_cancel_left]
  rfl

theorem land3d_diff {w : World} (h : LandmarkGraph w) {f : FRef} {n : NRef} {obs : Vec3} {W : Mat3} {rev : Bool}
    (hn : n ∈ (w.fh f).nbrs) (hk : (w.nh n).kind = .landmark3d)
    (ht : (w.fh f).nbrs.map (fun n => (w.nh n).kind) = (FactorVirt.land3d obs W rev .quadratic).kinds)
    (hX : ∀ m ∈ (w.fh f).nbrs, ∀ X : SE3, (w.nh m).val = ⟨.pose3d, X⟩ → Spec.IsRotation X.R) (δ : Cols w → ℝ) :
    (∀ n' ∈ (w.fh f).nbrs, (w.nh n').kind = .landmark3d → n' = n) ∧ ∃ R : Mat3, Rᵀ * R = 1 ∧
      (fun l => (FactorVirt.land3d obs W rev .quadratic).res ((w.fh f).nbrs.map fun n => ((w.moved (w.spread δ)).nh n).val) l -
        (FactorVirt.land3d obs W rev .quadratic).res ((w.fh f).nbrs.map fun n => (w.nh n).val) l) =
      R *ᵥ fun k : Fin 3 => w.spread δ n k := by
  have hpm : ∀ n, (w.nh n).kind = .pose3d → ((w.moved (w.spread δ)).nh n).val = (w.nh n).val := by
    intro n hn
    congr 1
    exact if_neg fun h' => by rw [h.nodes n h'] at hn; simp at hn
  generalize (w.fh f).nbrs = nbrs at hn ht hX
  cases rev with
  | false =>
    have ht' : nbrs.map (fun n => (w.nh n).kind) = [.pose3d, .landmark3d] := ht
    obtain ⟨x, y, rfl⟩ : ∃ x y, nbrs = [x, y] := by
      have := congrArg List.length ht'
      simp at this
      exact List.length_eq_two.mp this
    simp at ht'
    obtain ⟨hx, hy⟩ := ht'
    have hu : ∀ n' ∈ [x, y], (w.nh n').kind = .landmark3d → n' = y := by
      intro n' hn' hk'
      simp at hn'
      rcases hn' with rfl | rfl
      · rw [hx] at hk'; simp at hk'
      · rfl
    obtain rfl := hu n hn hk
    obtain ⟨X, hXv⟩ := val_of_kind hx
    obtain ⟨p, hp⟩ := val_of_kind hy
    refine ⟨hu, X.inv.R, ?_, ?_⟩
    · rw [inv_R_eq, transpose_transpose]
      exact (hX x (by simp) X hXv).1
    · simp only [List.map_cons, List.map_nil, hpm x hx, moved_landmark δ hp, hXv, hp]
      exact land3d_sub obs X p _
  | true =>
    have ht' : nbrs.map (fun n => (w.nh n).kind) = [.landmark3d, .pose3d] := ht
    obtain ⟨x, y, rfl⟩ : ∃ x y, nbrs = [x, y] := by
      have := congrArg List.length ht'
      simp at this
      exact List.length_eq_two.mp this
    simp at ht'
    obtain ⟨hx, hy⟩ := ht'
    have hu : ∀ n' ∈ [x, y], (w.nh n').kind = .landmark3d → n' = x := by
      intro n' hn' hk'
      simp at hn'
      rcases hn' with rfl | rfl
      · rfl
      · rw [hy] at hk'; simp at hk'
    obtain rfl := hu n hn hk
    obtain ⟨X, hXv⟩ := val_of_kind hy
    obtain ⟨p, hp⟩ := val_of_kind hx
    refine ⟨hu, X.inv.R, ?_, ?_⟩
    · rw [inv_R_eq, transpose_transpose]
      exact (hX y (by simp) X hXv).1
    · simp only [List.map_cons, List.map_nil, hpm y hy, moved_landmark δ hp, hXv, hp]
      exact land3d_sub obs X p _

theorem dot_rot {R : Mat3} (h : Rᵀ * R = 1) (v : Vec3) : (R *ᵥ v) ⬝ᵥ (R *ᵥ v) = v ⬝ᵥ v := by
  rw [dotProduct_mulVec, ← mulVec_transpose, mulVec_mulVec, h, one_mulVec]

/-- The information matrix of landmarks that are all seen. -/
theorem info_bound {w : World} (h : LandmarkGraph w) (hw : WellPosed w) {μ : ℝ} (hs : Seen w μ) (δ : Cols w → ℝ) :
    μ * (δ ⬝ᵥ δ) ≤ δ ⬝ᵥ (Spec.infoMatrix (graphTerms w) *ᵥ δ) := by
  have hq := h.quadratic
  have hone : ∀ f ∈ w.g.factors, factorWeight w f = 1 := fun f hf => by rw [factorWeight, hq f hf]; rfl
  let q : FRef → ℝ := fun f => ((factorTerm w f).J *ᵥ δ) ⬝ᵥ ((w.fh f).virt.W *ᵥ ((factorTerm w f).J *ᵥ δ))
  have hsum : δ ⬝ᵥ (Spec.infoMatrix (graphTerms w) *ᵥ δ) = (w.g.factors.map q).sum := by
    unfold Spec.infoMatrix
    rw [Spec.sum_mulVec, Spec.dotProduct_list_sum, graphTerms, List.map_map]
    congr 1
    refine List.map_congr_left fun f hf => ?_
    change δ ⬝ᵥ (((factorTerm w f).Jᵀ * (factorWeight w f • (w.fh f).virt.W) * (factorTerm w f).J) *ᵥ δ) = _
    rw [hone f hf, one_smul, Matrix.mul_assoc, ← mulVec_mulVec, dotProduct_mulVec, vecMul_transpose, ← mulVec_mulVec]
  have hq0 : ∀ f ∈ w.g.factors, 0 ≤ q f := fun f hf => by
    have := (hw.psd f hf).dotProduct_mulVec_nonneg ((factorTerm w f).J *ᵥ δ)
    rwa [star_trivial] at this
  choose φ hφ hmem hμ hrot using hs
  have key : ∀ a : {a : NRef // a ∈ w.g.active}, (∀ n' ∈ (w.fh (φ a a.2)).nbrs, (w.nh n').kind = .landmark3d → n' = a) ∧
      μ * ∑ k : Fin 3, w.spread δ a k * w.spread δ a k ≤ q (φ a a.2) := by
    intro a
    obtain ⟨obs, W, rev, hv⟩ := h.factors _ (hφ a a.2)
    have ht := hw.wired.typed _ (hφ a a.2)
    rw [FactorCell.wellTyped] at ht
    have hJ : (factorTerm w (φ a a.2)).J *ᵥ δ = fun l =>
        (w.fh (φ a a.2)).virt.res ((w.fh (φ a a.2)).nbrs.map fun n => ((w.moved (w.spread δ)).nh n).val) l -
        (w.fh (φ a a.2)).virt.res ((w.fh (φ a a.2)).nbrs.map fun n => (w.nh n).val) l := by
      have := h.affine hw.wired _ (hφ a a.2) δ
      funext l
      have h1 := congrFun this l
      rw [Pi.add_apply] at h1
      exact eq_sub_of_add_eq' h1.symm
    have hb : μ * (((factorTerm w (φ a a.2)).J *ᵥ δ) ⬝ᵥ ((factorTerm w (φ a a.2)).J *ᵥ δ)) ≤ q (φ a a.2) := hμ a a.2 _
    rw [hJ] at hb
    have gen : ∀ V : FactorVirt, V = .land3d obs W rev .quadratic →
        (w.fh (φ a a.2)).nbrs.map (fun n => (w.nh n).kind) = V.kinds →
        (∀ n' ∈ (w.fh (φ a a.2)).nbrs, (w.nh n').kind = .landmark3d → n' = a) ∧
        (fun l => V.res ((w.fh (φ a a.2)).nbrs.map fun n => ((w.moved (w.spread δ)).nh n).val) l -
          V.res ((w.fh (φ a a.2)).nbrs.map fun n => (w.nh n).val) l) ⬝ᵥ
        (fun l => V.res ((w.fh (φ a a.2)).nbrs.map fun n => ((w.moved (w.spread δ)).nh n).val) l -
          V.res ((w.fh (φ a a.2)).nbrs.map fun n => (w.nh n).val) l) = ∑ k : Fin 3, w.spread δ a k * w.spread δ a k := by
      intro V hV h1
      subst hV
      obtain ⟨hu, R, hR, he⟩ := land3d_diff h (hmem a a.2) (h.nodes a a.2) h1 (hrot a a.2) δ
      exact ⟨hu, (congrArg (fun v : Vec3 => v ⬝ᵥ v) he).trans (dot_rot hR _)⟩
    obtain ⟨h1, h2⟩ := gen _ hv ht
    exact ⟨h1, by rwa [h2] at hb⟩
  have hinj : Function.Injective fun a : {a : NRef // a ∈ w.g.active} => φ a a.2 := by
    intro a b hab
    refine Subtype.ext ((key b).1 a ?_ (h.nodes a a.2))
    have := hmem a a.2
    rwa [show φ a a.2 = φ b b.2 from hab] at this
  rw [hsum]
  calc μ * (δ ⬝ᵥ δ) = ∑ a : {a : NRef // a ∈ w.g.active}, μ * ∑ k : Fin 3, w.spread δ a k * w.spread δ a k := by
        rw [dotProduct, Fintype.sum_sigma, Finset.mul_sum]
        refine Finset.sum_congr rfl fun a _ => ?_
        congr 1
        have hd : (w.nh a).dim = 3 := by rw [NodeCell.dim, h.nodes a a.2]; rfl
        have : ∀ (d : ℕ), d = 3 → ∑ k : Fin d, w.spread δ a k * w.spread δ a k = ∑ k : Fin 3, w.spread δ a k * w.spread δ a k := by
          rintro _ rfl; rfl
        rw [← this _ hd]
        refine Finset.sum_congr rfl fun k _ => ?_
        rw [spread_apply δ ⟨a, k⟩]
    _ ≤ ∑ a : {a : NRef // a ∈ w.g.active}, q (φ a a.2) := Finset.sum_le_sum fun a _ => (key a).2
    _ = ∑ f ∈ Finset.univ.image fun a : {a : NRef // a ∈ w.g.active} => φ a a.2, q f :=
        (Finset.sum_image fun a _ b _ hab => hinj hab).symm
    _ ≤ _ := sum_subset_list q _ hq0 _ fun f hf => by
        obtain ⟨a, -, rfl⟩ := Finset.mem_image.mp hf
        exact hφ a a.2

end LandmarkGraph

namespace FGraphSolve

/-- What a trial step does, in terms of the damped model. -/
theorem trial_model {env : Env} (henv : env.Sound) {s s' : FGraphSolve} {delta : ℝ} (hw : WellPosed s.w)
    (h : s.trial env = .ok (delta, s')) : ∃ x : Cols s.w → ℝ,
      Spec.infoMatrix (graphTerms s.w) *ᵥ x + s.lambda • x = Spec.infoVector (graphTerms s.w) ∧
      (∀ n, (s'.w.nh n).val = ((s.w.moved (s.w.spread (-x))).nh n).val) ∧
      s'.sys.dx ⬝ᵥ s'.sys.b - 0.5 * (s'.sys.dx ⬝ᵥ (s'.sys.L *ᵥ s'.sys.dx)) = x ⬝ᵥ Spec.infoVector (graphTerms s.w) / 2 ∧
      WellPosed s'.w := by
  have h0 := h
  rw [FGraphSolve.trial] at h0
  obtain ⟨s1, h1, -⟩ := Out.bind_eq_ok.mp h0
  obtain ⟨a, dx, h2, h3, -, -⟩ := FGraphSolve.gaussNewton_ok h1
  rw [buildAdjacency_wired hw.wired hw.weightable env, Out.ok.injEq, Prod.mk.injEq] at h2
  obtain ⟨-, rfl⟩ := h2
  obtain ⟨s2, h4, h5, h6, h7⟩ := FGraphSolve.trial_eq hw h3
  have hF := FGraphSolve.trial_frame h
  rw [h, Out.ok.injEq, Prod.mk.injEq] at h4
  obtain ⟨rfl, rfl⟩ := h4
  refine ⟨fun c => dx (colEquiv hw.wired c), FGraphSolve.damped_solution henv hw h3, fun n => ?_, ?_,
    hw.of_frame hF fun f hf => by rw [h6]; exact hw.built_weight f hf⟩
  · rw [h5, moved_step hw.wired]
    rfl
  · rw [h7]
    dsimp only
    rw [henv _ _ _ _ h3, ← assembly_b_terms hw.wired env hw.symm]
    have : (fun c => dx (colEquiv hw.wired c)) ⬝ᵥ (fun c => (s.w.assembly env).b (colEquiv hw.wired c)) = dx ⬝ᵥ (s.w.assembly env).b :=
      (colEquiv hw.wired).sum_comp fun i => dx i * (s.w.assembly env).b i
    refine Eq.trans ?_ (congrArg (· / 2) this.symm)
    ring

/-- The increment of the damping, by the ratio of the decrease and the promise. -/
theorem nextLambda_eq {l delta den : ℝ} (hd : 0 ≤ delta) (hn : 0 ≤ den) :
    nextLambda l delta den = if delta < den / 4 then l * 2 else if delta > 0.8 * den then l / 4 else l := by
  rw [nextLambda]
  rcases hn.eq_or_lt with h | h
  · rw [if_pos h.symm, ← h]
    rcases hd.eq_or_lt with h' | h'
    · rw [if_pos h'.symm, if_neg (by linarith), if_neg (by linarith)]
    · rw [if_neg h'.ne', if_neg (by linarith), if_pos (by linarith)]
      ring
  · rw [if_neg h.ne']
    have e : 0.25 * den = den / 4 := by ring
    have e1 : delta / den < 0.25 ↔ delta < den / 4 := by rw [div_lt_iff₀ h, e]
    have e2 : delta / den > 0.8 ↔ delta > 0.8 * den := by rw [gt_iff_lt, lt_div_iff₀ h]
    simp only [e1, e2]
    split_ifs <;> ring

/-- Symmetry of the terms. -/
theorem terms_symm {w : World} (hw : WellPosed w) : ∀ t ∈ graphTerms w, t.W.IsSymm := by
  intro t ht
  obtain ⟨f, hf, rfl⟩ := List.mem_map.mp ht
  exact (hw.symm f hf).smul _

theorem terms_psd {w : World} (hw : WellPosed w) : (Spec.infoMatrix (graphTerms w)).PosSemidef := by
  rw [← assembly_L_terms hw.wired Env.exact hw.symm]
  exact (hw.assembly_psd Env.exact).submatrix _

theorem cost_nonneg {w : World} (hw : WellPosed w) : 0 ≤ w.cost := by
  obtain ⟨c, w', hc, h3, -⟩ := C29_graph w hw.wired.typed
  rw [chi2Eval_eq _ hw.wired.typed, Out.ok.injEq, Prod.mk.injEq] at hc
  rw [hc.1]
  exact h3 hw.psd

theorem linear_zero {w : World} (ha : Affine w) (hq : ∀ f ∈ w.g.factors, (w.fh f).virt.robust = .quadratic) :
    Spec.linearCost (graphTerms w) 0 = w.cost := by
  rw [← cost_moved ha hq]
  have hsf : SameFactors w (w.moved (w.spread 0)) := ⟨rfl, fun _ => rfl, fun _ => rfl, fun _ => rfl⟩
  refine cost_congr hsf fun f hf => ?_
  rw [ha f hf 0, mulVec_zero, add_zero]
  rfl

/-- The actual cost after a step on a landmark graph is that of the linearised problem. -/
theorem cost_linear {w w' : World} (ha : Affine w) (hq : ∀ f ∈ w.g.factors, (w.fh f).virt.robust = .quadratic)
    (hF : Frame w w') {δ : Cols w → ℝ} (hv : ∀ n, (w'.nh n).val = ((w.moved (w.spread δ)).nh n).val) :
    w'.cost = Spec.linearCost (graphTerms w) δ := by
  rw [← cost_moved ha hq]
  exact cost_congr_nh (w := w.moved (w.spread δ)) ⟨hF.factors.g, hF.factors.virt, hF.factors.nbrs, hF.factors.id⟩ hv

/-- The promise of the damped step is kept when the residuals are affine. -/
theorem trial_kept {env : Env} (henv : env.Sound) {s s' : FGraphSolve} {delta : ℝ} (hw : WellPosed s.w)
    (ha : Affine s.w) (hq : ∀ f ∈ s.w.g.factors, (s.w.fh f).virt.robust = .quadratic) (hl : 0 ≤ s.lambda)
    (h : s.trial env = .ok (delta, s')) :
    s'.sys.dx ⬝ᵥ s'.sys.b - 0.5 * (s'.sys.dx ⬝ᵥ (s'.sys.L *ᵥ s'.sys.dx)) ≤ delta ∧
    0 ≤ s'.sys.dx ⬝ᵥ s'.sys.b - 0.5 * (s'.sys.dx ⬝ᵥ (s'.sys.L *ᵥ s'.sys.dx)) ∧ WellPosed s'.w := by
  obtain ⟨x, hx, hv, hden, hw'⟩ := trial_model henv hw h
  have hd : delta = s.w.cost - s'.w.cost := (trial_ok h).2.2.2.2.2.1
  rw [hden, hd, cost_linear ha hq (trial_frame h) hv, ← linear_zero ha hq, Spec.linearCost_drop _ (terms_symm hw) x hx]
  have h1 := (terms_psd hw).dotProduct_mulVec_nonneg x
  rw [star_trivial] at h1
  have h2 := mul_nonneg hl (Spec.dot_self_nonneg x)
  have h3 : x ⬝ᵥ Spec.infoVector (graphTerms s.w) = x ⬝ᵥ (Spec.infoMatrix (graphTerms s.w) *ᵥ x) + s.lambda * (x ⬝ᵥ x) := by
    rw [← hx, dotProduct_add, dotProduct_smul, smul_eq_mul]
  rw [h3]
  exact ⟨by linarith, by linarith, hw'⟩

/-- Facts about a run on a landmark graph. -/
theorem LMRun.landmarks {env : Env} (henv : env.Sound) {maxIters iter : ℕ} {s : FGraphSolve} {r : LMResult}
    (h : LMRun env maxIters iter s r) : WellPosed s.w → LandmarkGraph s.w → 0 < s.lambda → 0 < s.tol →
    iter < r.iters ∧ (r.ret = 0 ∨ r.ret = r.iters) ∧
    r.s.lambda * 4 ^ (if r.ret = 0 then r.iters - iter else r.iters - iter - 1) = s.lambda ∧
    (if r.ret = 0 then r.iters - iter else r.iters - iter - 1 : ℕ) * s.tol ≤ s.w.cost ∧
    (r.ret = 0 → maxIters ≤ r.iters) ∧
    (r.ret ≠ 0 → ∃ (s1 s2 : FGraphSolve) (delta : ℝ), WellPosed s1.w ∧ Frame s.w s1.w ∧ 0 < s1.lambda ∧ s1.lambda ≤ s.lambda ∧
      s1.trial env = .ok (delta, s2) ∧ delta < s.tol ∧ r.s = s2) := by
  induction h with
  | rejectLast h1 h2 =>
    intro hw hL hl ht
    obtain ⟨k1, k2, -⟩ := trial_kept henv hw (hL.affine hw.wired) hL.quadratic hl.le h1
    exact absurd h2 (by linarith)
  | rejectNext h1 h2 =>
    intro hw hL hl ht
    obtain ⟨k1, k2, -⟩ := trial_kept henv hw (hL.affine hw.wired) hL.quadratic hl.le h1
    exact absurd h2 (by linarith)
  | @converged iter s delta s' h1 h2 h3 =>
    intro hw hL hl ht
    have hlam : s'.lambda = s.lambda := (trial_ok h1).2.1
    refine ⟨Nat.lt_succ_self _, Or.inr rfl, ?_, ?_, fun h => absurd h (Nat.succ_ne_zero _), fun _ =>
      ⟨s, s', delta, hw, .refl _, hl, le_rfl, h1, h3, rfl⟩⟩
    · rw [if_neg (Nat.succ_ne_zero _)]
      simp [hlam]
    · rw [if_neg (Nat.succ_ne_zero _)]
      simpa using cost_nonneg hw
  | @acceptLast iter s delta s' h1 h2 h3 h4 =>
    intro hw hL hl ht
    obtain ⟨k1, k2, hw'⟩ := trial_kept henv hw (hL.affine hw.wired) hL.quadratic hl.le h1
    have hlam : s'.lambda = s.lambda := (trial_ok h1).2.1
    have hd : delta = s.w.cost - s'.w.cost := (trial_ok h1).2.2.2.2.2.1
    have hpos : 0 < delta := lt_of_lt_of_le ht h3
    refine ⟨Nat.lt_succ_self _, Or.inl rfl, ?_, ?_, fun _ => by change maxIters ≤ iter + 1; omega, fun h => absurd rfl h⟩
    · rw [if_pos rfl]
      change nextLambda s'.lambda delta _ * 4 ^ (iter + 1 - iter) = _
      rw [nextLambda_eq h2 k2, if_neg (by linarith), if_pos (by linarith), hlam]
      simp
    · rw [if_pos rfl]
      have := cost_nonneg hw'
      simp
      linarith
  | @acceptNext iter s delta s' r h1 h2 h3 h4 _ ih =>
    intro hw hL hl ht
    obtain ⟨k1, k2, hw'⟩ := trial_kept henv hw (hL.affine hw.wired) hL.quadratic hl.le h1
    have hlam : s'.lambda = s.lambda := (trial_ok h1).2.1
    have htol : s'.tol = s.tol := (trial_ok h1).2.2.1
    have hd : delta = s.w.cost - s'.w.cost := (trial_ok h1).2.2.2.2.2.1
    have hpos : 0 < delta := lt_of_lt_of_le ht h3
    have hF := trial_frame h1
    have hl' : (s'.adapt delta).lambda = s.lambda / 4 := by
      change nextLambda s'.lambda delta _ = _
      rw [nextLambda_eq h2 k2, if_neg (by linarith), if_pos (by linarith), hlam]
    obtain ⟨j1, j2, j3, j4, j5, j6⟩ := ih hw' (hL.of_frame hF) (by rw [hl']; linarith) (by change 0 < s'.tol; rw [htol]; exact ht)
    change _ ≤ s'.w.cost at j4
    rw [show (s'.adapt delta).tol = s.tol from htol] at j4 j6
    rw [hl'] at j3 j6
    have hexp : (if r.ret = 0 then r.iters - iter else r.iters - iter - 1) =
        (if r.ret = 0 then r.iters - (iter + 1) else r.iters - (iter + 1) - 1) + 1 := by
      split_ifs <;> omega
    rw [hexp]
    generalize (if r.ret = 0 then r.iters - (iter + 1) else r.iters - (iter + 1) - 1) = k at j3 j4 ⊢
    refine ⟨by omega, j2, ?_, ?_, j5, fun h => ?_⟩
    · rw [pow_succ]
      linarith
    · push_cast
      linarith
    · obtain ⟨s1, s2, d, m1, m2, m3, m4, m5, m6, m7⟩ := j6 h
      exact ⟨s1, s2, d, m1, Frame.trans hF m2, m3, by linarith, m5, m6, m7⟩

end FGraphSolve

end Mrob
