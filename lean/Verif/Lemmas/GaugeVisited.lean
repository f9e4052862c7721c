import Verif.Lemmas.Gauge
import Verif.Spec.Visited

/-!
# Levenberg-Marquardt in other coordinates, along the estimates it comes to
-/

open Matrix

namespace Mrob

open World Spec

namespace FGraphSolve

variable {S : Sym}

/-- As `Gauge`, without assumptions on states the loop does not come to. -/
structure GaugeNow (S : Sym) (s s' : FGraphSolve) : Prop where
  /-- graph -/
  w : World.Gauge S s.w s'.w
  /-- damping -/
  lambda : s'.lambda = s.lambda
  /-- tolerance -/
  tol : s'.tol = s.tol
  /-- orthogonal changes of coordinates -/
  orth : ∀ n ∈ s.w.g.active, S.Orth (s.w.nh n).kind

/-- The damped steps from `s` are followed. -/
def FollowsAt (S : Sym) (s s' : FGraphSolve) : Prop :=
  ∀ x : Cols s.w → ℝ, infoMatrix (graphTerms s.w) *ᵥ x + s.lambda • x = infoVector (graphTerms s.w) →
    ∀ n ∈ s.w.g.active, S.rel ((s.w.nh n).val.upd (s.w.spread (-x) n))
      ((s'.w.nh n).val.upd (S.lin (s.w.nh n).kind (s.w.spread (-x) n)))

/-- The factors of `w` can be evaluated in the other coordinates at the values of `t`. -/
def OkAt (S : Sym) (w : World) (t : FGraphSolve) : Prop :=
  ∀ f ∈ w.g.factors, S.ok (w.fh f).virt ((w.fh f).nbrs.map fun n => (t.w.nh n).val)

theorem OkAt.of_frame {w w1 : World} {t : FGraphSolve} (h : OkAt S w t) (hF : Frame w w1) : OkAt S w1 t := by
  intro f hf
  rw [hF.factors.g] at hf
  rw [hF.factors.virt, hF.factors.nbrs]
  exact h f hf

theorem GaugeNow.of_frames {s s' s1 s1' : FGraphSolve} (h : GaugeNow S s s') (hF : Frame s.w s1.w)
    (hw : World.Gauge S s1.w s1'.w) (hl : s1'.lambda = s1.lambda) (ht : s1'.tol = s1.tol) : GaugeNow S s1 s1' := by
  refine ⟨hw, hl, ht, fun n hn => ?_⟩
  rw [hF.factors.g] at hn
  rw [(hF.active n).kind]; exact h.orth n hn

/-- One iteration. -/
theorem trial_now {env env' : Env} (henv : env.Sound) (henv' : env'.Sound) {s s' s1 s1' : FGraphSolve}
    {d d' : ℝ} (h : GaugeNow S s s') (hw : WellPosed s.w) (hw' : WellPosed s'.w) (hr : NoRansac s.w) (hr' : NoRansac s'.w)
    (hl : 0 < s.lambda) (h1 : s.trial env = .ok (d, s1)) (h1' : s'.trial env' = .ok (d', s1')) (hok : OkAt S s.w s1)
    (hf : FollowsAt S s s') :
    d' = d ∧ GaugeNow S s1 s1' ∧ GaugeNow S (s1.adapt d) (s1'.adapt d') ∧ (OkAt S s.w s1.reject → GaugeNow S s1.reject s1'.reject) ∧
      WellPosed s1.w ∧ WellPosed s1'.w := by
  obtain ⟨x, hx, hv, hden, hw1⟩ := trial_model henv hw h1
  obtain ⟨x', hx', hv', hden', hw1'⟩ := trial_model henv' hw' h1'
  rw [h.lambda] at hx'
  obtain ⟨z, hz1, hz2, hz3⟩ := h.w.solution hw.wired hr hr' (Or.inr h.orth) x' hx'
  have hzx : z = x := unique_step (terms_psd hw) hl (hz2.trans hx.symm)
  subst hzx
  have hvv : ∀ n, (n ∈ s.w.g.active ∨ ∃ f ∈ s.w.g.factors, n ∈ (s.w.fh f).nbrs) →
      S.rel (s1.w.nh n).val (s1'.w.nh n).val := by
    intro n hn
    rw [hv', hv]
    refine h.w.moved_val_at (-x') (-z) ?_ (hf z hx) hn
    rw [mulVec_neg, ← hz1]; rfl
  have ha1 := h.w.of_frames (trial_frame h1) (trial_frame h1') hvv hok
  have hlam : s1.lambda = s.lambda := (trial_ok h1).2.1
  have hlam' : s1'.lambda = s'.lambda := (trial_ok h1').2.1
  have htol : s1.tol = s.tol := (trial_ok h1).2.2.1
  have htol' : s1'.tol = s'.tol := (trial_ok h1').2.2.1
  have hd : d' = d := by
    rw [(trial_ok h1).2.2.2.2.2.1, (trial_ok h1').2.2.2.2.2.1, h.w.cost_eq hw.wired, ha1.cost_eq hw1.wired]
  have e1 : s1'.lambda = s1.lambda := by rw [hlam, hlam', h.lambda]
  have e2 : s1'.tol = s1.tol := by rw [htol, htol', h.tol]
  have hF := trial_frame h1
  refine ⟨hd, h.of_frames hF ha1 e1 e2, h.of_frames (s1 := s1.adapt d) (s1' := s1'.adapt d') hF ha1 ?_ e2, fun hrj =>
    h.of_frames (s1 := s1.reject) (s1' := s1'.reject) (hF.trans (reject_frame s1)) ?_ ?_ e2, hw1, hw1'⟩
  · change nextLambda _ _ _ = nextLambda _ _ _
    rw [hden, hden', e1, hd, hz3]
  · refine ha1.of_frames (reject_frame s1) (reject_frame s1') (fun n hn => ?_) (hrj.of_frame hF)
    rw [reject_val h1, reject_val h1', h.w.active]
    have hn' : n ∈ s.w.g.active ∨ ∃ f ∈ s.w.g.factors, n ∈ (s.w.fh f).nbrs := by
      rw [hF.factors.g] at hn
      refine hn.imp id ?_
      rintro ⟨f, k1, k2⟩
      exact ⟨f, k1, by rwa [hF.factors.nbrs] at k2⟩
    by_cases ha : n ∈ s.w.g.active
    · rw [if_pos ha, if_pos ha]
      exact (h.w.moves n ha).stored rfl (h.w.val n hn')
    · rw [if_neg ha, if_neg ha]
      exact h.w.val n hn'
  · change s1'.lambda * 2 = s1.lambda * 2
    rw [e1]

/-- The whole loop. -/
theorem lmLoop_now {env env' : Env} (henv : env.Sound) (henv' : env'.Sound) {maxIters : ℕ} :
    ∀ (k iter : ℕ) {s s' : FGraphSolve} {r r' : LMResult}, maxIters - iter = k →
    GaugeNow S s s' → WellPosed s.w → WellPosed s'.w → NoRansac s.w → NoRansac s'.w → 0 < s.lambda →
    (∀ t, LMVisited env maxIters iter s t → OkAt S s.w t) →
    (∀ u u', LMStart env maxIters iter s u → World.Gauge S u.w u'.w → FollowsAt S u u') →
    lmLoop env maxIters iter s = .ok r → lmLoop env' maxIters iter s' = .ok r' →
    r'.ret = r.ret ∧ r'.iters = r.iters ∧ World.Gauge S r.s.w r'.s.w ∧ WellPosed r.s.w := by
  intro k
  induction k using Nat.strong_induction_on with
  | _ k ih =>
    intro iter s s' r r' hk h hw hw' hr hr' hl hok hfo hrun hrun'
    rw [lmLoop] at hrun hrun'
    obtain ⟨⟨d, s1⟩, h1, hrun⟩ := Out.bind_eq_ok.mp hrun
    obtain ⟨⟨d', s1'⟩, h1', hrun'⟩ := Out.bind_eq_ok.mp hrun'
    obtain ⟨rfl, m1, m2, m3, m4, m5⟩ := trial_now henv henv' h hw hw' hr hr' hl h1 h1' (hok _ (.tried h1))
      (hfo _ _ .here h.w)
    have hl1 : s1.lambda = s.lambda := (trial_ok h1).2.1
    have ht1 : s1.tol = s.tol := (trial_ok h1).2.2.1
    have hF := trial_frame h1
    have hr1 := hr.of_factors (trial_frame h1).factors
    have hr1' := hr'.of_factors (trial_frame h1').factors
    dsimp only at hrun hrun'
    rw [m1.tol] at hrun'
    by_cases hd : d' < 0
    · rw [if_pos hd] at hrun hrun'
      have m3 := m3 (hok _ (.restored h1 hd))
      by_cases hi : iter + 1 < maxIters
      · rw [if_pos hi] at hrun hrun'
        refine ih _ (by omega) (iter + 1) rfl m3 (wellPosed_reject m4) (wellPosed_reject m5)
          (hr1.of_factors (reject_frame _).factors) (hr1'.of_factors (reject_frame _).factors) ?_ (fun t ht => ?_)
          (fun u u' hu => hfo u u' (.afterReject h1 hd hi hu)) hrun hrun'
        · change 0 < s1.lambda * 2
          rw [hl1]; linarith
        · exact (hok t (.afterReject h1 hd hi ht)).of_frame (hF.trans (reject_frame s1))
      · rw [if_neg hi, Out.ok.injEq] at hrun hrun'
        subst hrun hrun'
        exact ⟨rfl, rfl, m3.w, wellPosed_reject m4⟩
    · rw [if_neg hd] at hrun hrun'
      by_cases ht : d' < s1.tol
      · rw [if_pos ht, Out.ok.injEq] at hrun hrun'
        subst hrun hrun'
        exact ⟨rfl, rfl, m1.w, m4⟩
      · rw [if_neg ht] at hrun hrun'
        by_cases hi : iter + 1 < maxIters
        · rw [if_pos hi] at hrun hrun'
          refine ih _ (by omega) (iter + 1) rfl m2 m4 m5 hr1 hr1' (nextLambda_pos (by rw [hl1]; exact hl)) (fun t hv => ?_)
            (fun u u' hu => hfo u u' (.afterAccept h1 (not_lt.mp hd) (by rw [← ht1]; exact not_lt.mp ht) hi hu)) hrun hrun'
          exact (hok t (.afterAccept h1 (not_lt.mp hd) (by rw [← ht1]; exact not_lt.mp ht) hi hv)).of_frame (w1 := (s1.adapt d').w) hF
        · rw [if_neg hi, Out.ok.injEq] at hrun hrun'
          subst hrun hrun'
          exact ⟨rfl, rfl, m2.w, m4⟩

/-- All increments are followed. -/
theorem followsAt_of {s s' : FGraphSolve} (h : World.Gauge S s.w s'.w) (hf : ∀ κ δ, S.Follows κ δ) : FollowsAt S s s' :=
  fun _ _ n hn => hf _ _ (v := (s.w.nh n).val) (v' := (s'.w.nh n).val) rfl (h.val n (.inl hn))

end FGraphSolve

end Mrob
