import Verif.Model.PlaneReg
import Verif.Lemmas.Optimizer
import Verif.Lemmas.PlaneObj
import Verif.Lemmas.SE3Ln
import Verif.Lemmas.Deriv
import Verif.Lemmas.SO3LnInv

/-! # Invariants of `PlaneRegistration` -/

open Matrix

namespace Mrob

theorem Out.mapAccum_rel {α β σ : Type} {f : α → σ → Out (β × σ)} {R : σ → σ → Prop} (hr : ∀ s, R s s)
    (ht : ∀ a b c, R a b → R b c → R a c) (hf : ∀ a s r, f a s = .ok r → R s r.2) :
    ∀ (l : List α) (s : σ) (r : List β × σ), Out.mapAccum f l s = .ok r → R s r.2 := by
  intro l
  induction l with
  | nil => intro s r h; cases h; exact hr s
  | cons a l ih =>
    intro s r h
    rw [Out.mapAccum] at h
    obtain ⟨⟨b, s1⟩, h1, h⟩ := Out.bind_eq_ok.mp h
    obtain ⟨⟨bs, s2⟩, h2, h⟩ := Out.bind_eq_ok.mp h
    cases h
    exact ht _ _ _ (hf _ _ _ h1) (ih _ (bs, s2) h2)

theorem Out.mapAccum_length {α β σ : Type} {f : α → σ → Out (β × σ)} :
    ∀ (l : List α) (s : σ) (r : List β × σ), Out.mapAccum f l s = .ok r → r.1.length = l.length := by
  intro l
  induction l with
  | nil => intro s r h; cases h; rfl
  | cons a l ih =>
    intro s r h
    rw [Out.mapAccum] at h
    obtain ⟨⟨b, s1⟩, h1, h⟩ := Out.bind_eq_ok.mp h
    obtain ⟨⟨bs, s2⟩, h2, h⟩ := Out.bind_eq_ok.mp h
    cases h
    simpa using ih _ _ h2

/-! ## Exponential and logarithm at zero -/

theorem updateLhs_zero' (T : SE3) : T.updateLhs 0 = T := by
  ext1
  change (SE3.ofVec 0).T * T.T = T.T
  rw [se3_ofVec_zero, one_mul]

theorem rigid_one : Spec.IsRigid SE3.default.T := by
  change Spec.IsRigid (1 : Mat4)
  rw [← homog_one]
  exact isRigid_homog ⟨by simp, by simp⟩ 0

theorem lnVee_default : SE3.default.lnVee = 0 := by
  have hR : SE3.default.R = 1 := by
    change tl3 (1 : Mat4) = 1
    rw [← homog_one, tl3_homog]
  have ht : SE3.default.t = 0 := by
    change tr3 (1 : Mat4) = 0
    rw [← homog_one, tr3_homog]
  rw [se3_lnVee rigid_one, hR, ht, lnVee_one, mulVec_zero]
  funext i
  rcases i with i | i <;> rfl

namespace PlaneReg

/-! ## Frames -/

/-- The object changes in its planes only. -/
def PlanesOnly (s s' : PlaneReg) : Prop := ∃ ps, s' = { s with planes := ps }

theorem PlanesOnly.refl (s : PlaneReg) : PlanesOnly s s := ⟨s.planes, rfl⟩

theorem PlanesOnly.trans {a b c : PlaneReg} (h : PlanesOnly a b) (h' : PlanesOnly b c) : PlanesOnly a c := by
  obtain ⟨p, rfl⟩ := h
  obtain ⟨q, rfl⟩ := h'
  exact ⟨q, rfl⟩

theorem eachPlane_frame {β : Type} {f : Plane → Out (β × Plane)} {s : PlaneReg} {r : List β × PlaneReg}
    (h : s.eachPlane f = .ok r) : PlanesOnly s r.2 := by
  rw [eachPlane] at h
  obtain ⟨l, -, h⟩ := Out.bind_eq_ok.mp h
  cases h
  exact ⟨_, rfl⟩

theorem error_frame {e : EigSolver} {s : PlaneReg} {r : ℝ × PlaneReg} (h : s.error e = .ok r) : PlanesOnly s r.2 := by
  rw [error] at h
  obtain ⟨⟨l, s1⟩, h1, h⟩ := Out.bind_eq_ok.mp h
  cases h
  exact eachPlane_frame h1

theorem gradAt_frame {t : ℕ} {s : PlaneReg} {r : (Vec6 × ℕ) × PlaneReg} (h : s.gradAt t = .ok r) : PlanesOnly s r.2 := by
  rw [gradAt] at h
  obtain ⟨⟨l, s1⟩, h1, h⟩ := Out.bind_eq_ok.mp h
  cases h
  exact eachPlane_frame h1

theorem gradHessAt_frame {t : ℕ} {s : PlaneReg} {r : (Vec6 × Mat6) × PlaneReg} (h : s.gradHessAt t = .ok r) :
    PlanesOnly s r.2 := by
  rw [gradHessAt] at h
  obtain ⟨⟨l, s1⟩, h1, h⟩ := Out.bind_eq_ok.mp h
  cases h
  exact eachPlane_frame h1

theorem accGradient_frame {s : PlaneReg} {r : Vec6 × PlaneReg} (h : s.accGradient = .ok r) :
    PlanesOnly s r.2 ∧ (s.times = [] → r.1 = 0) := by
  rw [accGradient] at h
  obtain ⟨⟨l, s1⟩, h1, h⟩ := Out.bind_eq_ok.mp h
  cases h
  refine ⟨Out.mapAccum_rel (R := PlanesOnly) PlanesOnly.refl (fun _ _ _ => PlanesOnly.trans) ?_ _ _ _ h1, fun h0 => ?_⟩
  · intro t s r hr
    obtain ⟨⟨⟨g, k⟩, s2⟩, h2, hr⟩ := Out.bind_eq_ok.mp hr
    dsimp only at hr
    split at hr
    · cases hr
    · cases hr
      exact gradAt_frame h2
  · have := Out.mapAccum_length _ _ _ h1
    rw [h0] at this
    have hl : l = [] := List.length_eq_zero_iff.mp this
    rw [hl]
    rfl

theorem gradHess6_frame {e : EigSolver} {s : PlaneReg} {r : (Vec6 × Mat6) × PlaneReg} (h : s.gradHess6 e = .ok r) :
    PlanesOnly s r.2 ∧ (s.times = [] → r.1.1 = 0) := by
  rw [gradHess6] at h
  obtain ⟨⟨c, s0⟩, h0, h⟩ := Out.bind_eq_ok.mp h
  obtain ⟨⟨l, s1⟩, h1, h⟩ := Out.bind_eq_ok.mp h
  cases h
  obtain ⟨ps, hps⟩ := error_frame h0
  refine ⟨(error_frame h0).trans
    (Out.mapAccum_rel (R := PlanesOnly) PlanesOnly.refl (fun _ _ _ => PlanesOnly.trans) ?_ _ _ _ h1), fun ht => ?_⟩
  · intro t s r hr
    obtain ⟨⟨⟨g, k⟩, s2⟩, h2, hr⟩ := Out.bind_eq_ok.mp hr
    cases hr
    exact gradHessAt_frame (r := ((g, k), s2)) h2
  · have := Out.mapAccum_length _ _ _ h1
    have e1 : s0.times = s.times := by
      have : s0 = _ := hps
      rw [this]; rfl
    rw [e1, ht] at this
    have hl : l = [] := List.length_eq_zero_iff.mp this
    rw [hl]
    rfl

/-! ## Interpolation -/

theorem lastIdx_eq {s : PlaneReg} (h1 : s.numberPoses ≠ 0) (h2 : s.numberPoses < 2 ^ 32) : s.lastIdx = s.numberPoses - 1 := by
  rw [lastIdx]
  omega

theorem interpolate_ok {tau : ℝ} {xi : Vec6} : ∀ {ts : List ℕ} {traj traj' : List SE3},
    interpolate tau xi ts traj = .ok traj' → traj'.length = traj.length ∧
      (∀ t, t ∉ ts → traj'[t]? = traj[t]?) ∧ (∀ t ∈ ts, traj'[t]? = some (SE3.ofVec ((tau * t) • xi))) := by
  intro ts
  induction ts with
  | nil => intro traj traj' h; cases h; exact ⟨rfl, fun _ _ => rfl, by simp⟩
  | cons a ts ih =>
    intro traj traj' h
    rw [interpolate] at h
    split at h
    · rename_i ha
      obtain ⟨h1, h2, h3⟩ := ih h
      refine ⟨by rw [h1, List.length_set], fun t ht => ?_, fun t ht => ?_⟩
      · rw [h2 t fun hh => ht (List.mem_cons_of_mem _ hh), List.getElem?_set_ne]
        rintro rfl
        exact ht List.mem_cons_self
      · by_cases hm : t ∈ ts
        · exact h3 t hm
        · obtain rfl : t = a := (List.mem_cons.mp ht).resolve_right hm
          rw [h2 t hm, List.getElem?_set_self ha]
    · cases h

theorem interpolate_total {tau : ℝ} {xi : Vec6} : ∀ {ts : List ℕ} {traj : List SE3}, (∀ t ∈ ts, t < traj.length) →
    ∃ traj', interpolate tau xi ts traj = .ok traj' := by
  intro ts
  induction ts with
  | nil => intro traj _; exact ⟨traj, rfl⟩
  | cons a ts ih =>
    intro traj h
    rw [interpolate, if_pos (h a List.mem_cons_self)]
    exact ih fun t ht => by rw [List.length_set]; exact h t (List.mem_cons_of_mem _ ht)

/-- What assigning the last pose does to the trajectory. -/
theorem placeLast_ok {T : SE3} {s s' : PlaneReg} (h : s.placeLast T = .ok s') (hn : s.numberPoses ≠ 0)
    (hb : s.numberPoses < 2 ^ 32) (hl : s.traj.length = s.numberPoses) :
    ∃ traj, s' = { s with traj := traj } ∧ traj.length = s.numberPoses ∧ traj[s.numberPoses - 1]? = some T ∧
      (2 ≤ s.numberPoses → traj[0]? = s.traj[0]?) ∧
      ∀ t, 0 < t → t < s.numberPoses - 1 → traj[t]? = some (SE3.ofVec ((s.tau * t) • T.lnVee)) := by
  rw [placeLast] at h
  obtain ⟨traj, h1, h⟩ := Out.bind_eq_ok.mp h
  cases h
  obtain ⟨a, b, c⟩ := interpolate_ok h1
  have hm : ∀ t, t ∈ s.innerTimes ↔ 0 < t ∧ t < s.numberPoses - 1 := by
    intro t
    rw [innerTimes, lastIdx_eq hn hb, List.mem_range'_1]
    omega
  rw [List.length_set, hl] at a
  refine ⟨traj, rfl, a, ?_, fun h2 => ?_, fun t h0 h1 => c t ((hm t).mpr ⟨h0, h1⟩)⟩
  · rw [b _ (by rw [hm]; omega), hl, List.getElem?_set_self (by omega)]
  · rw [b 0 (by rw [hm]; omega), List.getElem?_set_ne (by omega)]

theorem lastPose_ok {s : PlaneReg} {T : SE3} (h : s.lastPose = .ok T) : s.traj.getLast? = some T := by
  rw [lastPose] at h
  split at h
  · rename_i h1; cases h; exact h1
  · cases h

theorem lastPose_eq {s : PlaneReg} (h : s.traj ≠ []) : s.lastPose = .ok (s.traj.getLast h) := by
  rw [lastPose, List.getLast?_eq_getLast_of_ne_nil h]

theorem updatePoses_ok {c : ℝ} : ∀ {l : List (ℕ × Vec6)} {traj traj' : List SE3}, updatePoses c l traj = .ok traj' →
    traj'.length = traj.length ∧ ∀ t, t ∉ l.map (·.1) → traj'[t]? = traj[t]? := by
  intro l
  induction l with
  | nil => intro traj traj' h; cases h; exact ⟨rfl, fun _ _ => rfl⟩
  | cons a l ih =>
    intro traj traj' h
    obtain ⟨t0, g⟩ := a
    rw [updatePoses] at h
    obtain ⟨T, h1, h⟩ := Out.bind_eq_ok.mp h
    obtain ⟨h2, h3⟩ := ih h
    refine ⟨by rw [h2, List.length_set], fun t ht => ?_⟩
    rw [h3 t fun hh => ht (by simpa using Or.inr (by simpa using hh)), List.getElem?_set_ne]
    rintro rfl
    simp at ht

/-- All poses but the first and last are those at equal steps along the motion from the identity to the last pose. -/
def Interpolated (s : PlaneReg) : Prop := ∀ T, s.traj.getLast? = some T → ∀ t, 0 < t → t + 1 < s.numberPoses →
  s.traj[t]? = some (SE3.ofVec (((t : ℝ) / ((s.numberPoses : ℝ) - 1)) • T.lnVee))

theorem tau_eq {s : PlaneReg} (h1 : s.numberPoses ≠ 0) (h2 : s.numberPoses < 2 ^ 32) (t : ℕ) :
    s.tau * t = (t : ℝ) / ((s.numberPoses : ℝ) - 1) := by
  rw [tau, lastIdx_eq h1 h2, Nat.cast_sub (by omega), Nat.cast_one]
  ring

theorem getLast?_of_length {α : Type} {l : List α} {n : ℕ} (h : l.length = n) : l.getLast? = l[n - 1]? := by
  rw [List.getLast?_eq_getElem?, h]

theorem placeLast_interpolated {T : SE3} {s s' : PlaneReg} (h : s.placeLast T = .ok s') (hn : s.numberPoses ≠ 0)
    (hb : s.numberPoses < 2 ^ 32) (hl : s.traj.length = s.numberPoses) : s'.Interpolated := by
  obtain ⟨traj, rfl, h1, h2, -, h3⟩ := placeLast_ok h hn hb hl
  intro T' hT' t ht0 ht
  have hT' : traj.getLast? = some T' := hT'
  rw [getLast?_of_length h1, h2] at hT'
  cases hT'
  change traj[t]? = _
  have ht : t + 1 < s.numberPoses := ht
  rw [h3 t ht0 (by omega), tau_eq hn hb]

/-! ## The invariant -/

/-- Shape of a `PlaneRegistration` object; the first pose is the identity. -/
structure PoseInv (s : PlaneReg) : Prop where
  bound : s.numberPoses < 2 ^ 32
  len : s.numberPoses ≠ 0 → s.traj.length = s.numberPoses
  first : s.numberPoses ≠ 0 → s.traj[0]? = some SE3.default
  single : s.numberPoses = 1 → s.prev = [0]

theorem PoseInv.frame {s s' : PlaneReg} (hi : s.PoseInv) (h1 : s'.numberPoses = s.numberPoses) (h2 : s'.traj = s.traj)
    (h3 : s'.prev = s.prev) : s'.PoseInv := by
  obtain ⟨a, b, c, d⟩ := hi
  exact ⟨by rwa [h1], by rwa [h1, h2], by rwa [h1, h2], by rwa [h1, h3]⟩

theorem PoseInv.planesOnly {s s' : PlaneReg} (hi : s.PoseInv) (h : PlanesOnly s s') : s'.PoseInv := by
  obtain ⟨ps, rfl⟩ := h
  exact hi.frame rfl rfl rfl

theorem PoseInv.times_single {s : PlaneReg} (h : s.numberPoses = 1) : s.times = [] := by
  rw [times, h]
  rfl

theorem setNumbers_inv (a b : ℕ) (s : PlaneReg) : (s.setNumbers a b).PoseInv := by
  refine ⟨Nat.mod_lt _ (by norm_num), fun _ => by simp [setNumbers], fun h => ?_, fun h => ?_⟩
  · have h : b % 2 ^ 32 ≠ 0 := h
    change (List.replicate (b % 2 ^ 32) SE3.default)[0]? = _
    rw [List.getElem?_replicate, if_pos (by omega)]
  · have h : b % 2 ^ 32 = 1 := h
    change List.replicate (b % 2 ^ 32) (0 : Vec6) = _
    rw [h]
    rfl

theorem resetSolution_inv {s : PlaneReg} (hi : s.PoseInv) : s.resetSolution.PoseInv := by
  refine ⟨hi.bound, fun _ => by simp [resetSolution], fun h => ?_, fun h => ?_⟩
  · have h : s.numberPoses ≠ 0 := h
    change (List.replicate s.numberPoses SE3.default)[0]? = _
    rw [List.getElem?_replicate, if_pos (by omega)]
  · have h : s.numberPoses = 1 := h
    change List.replicate s.numberPoses (0 : Vec6) = _
    rw [h]
    rfl

/-- Interpolation at positive times. -/
theorem PoseInv.withTraj {s : PlaneReg} (hi : s.PoseInv) {traj : List SE3} (h1 : traj.length = s.traj.length)
    (h2 : traj[0]? = s.traj[0]?) : PoseInv { s with traj := traj } :=
  ⟨hi.bound, fun h => h1.trans (hi.len h), fun h => h2.trans (hi.first h), hi.single⟩

theorem setLastPose_inv {s s' : PlaneReg} {T : SE3} (hi : s.PoseInv) (h : s.setLastPose T = .ok s') : s'.PoseInv := by
  rw [setLastPose] at h
  obtain ⟨traj, h1, h⟩ := Out.bind_eq_ok.mp h
  cases h
  obtain ⟨a, b, -⟩ := interpolate_ok h1
  exact hi.withTraj a (b 0 (by rw [times, List.mem_range'_1]; omega))

/-- With one pose the single pose is the first one. -/
theorem PoseInv.single_traj {s : PlaneReg} (hi : s.PoseInv) (h1 : s.numberPoses = 1) : s.traj = [SE3.default] := by
  have hl := hi.len (by omega)
  have hf := hi.first (by omega)
  rw [h1] at hl
  obtain ⟨T, hT⟩ := List.length_eq_one_iff.mp hl
  rw [hT] at hf
  rw [hT]
  simpa using hf

theorem placeLast_inv {s s' : PlaneReg} {T : SE3} (hi : s.PoseInv) (hT : s.numberPoses = 1 → T = SE3.default)
    (h : s.placeLast T = .ok s') : s'.PoseInv := by
  by_cases h0 : s.numberPoses = 0
  · rw [placeLast] at h
    obtain ⟨traj, h1, h⟩ := Out.bind_eq_ok.mp h
    cases h
    exact ⟨hi.bound, fun h => absurd h0 h, fun h => absurd h0 h, fun h => hi.single h⟩
  · obtain ⟨traj, rfl, h2, h3, h4, -⟩ := placeLast_ok h h0 hi.bound (hi.len h0)
    refine ⟨hi.bound, fun _ => h2, fun _ => ?_, hi.single⟩
    by_cases h1 : s.numberPoses = 1
    · rw [h1] at h3
      exact h3.trans (by rw [hT h1])
    · exact (h4 (by omega)).trans (hi.first h0)

theorem moveLast_inv {s s' : PlaneReg} {dxi : Vec6} (hi : s.PoseInv) (hd : s.numberPoses = 1 → dxi = 0)
    (h : s.moveLast dxi = .ok s') : s'.PoseInv := by
  rw [moveLast] at h
  obtain ⟨T, h1, h⟩ := Out.bind_eq_ok.mp h
  refine placeLast_inv hi (fun hn => ?_) h
  have h2 := lastPose_ok h1
  rw [hi.single_traj hn] at h2
  have : T = SE3.default := by simpa using h2.symm
  rw [this, hd hn, updateLhs_zero']

theorem increment_inv {s : PlaneReg} {acc : Vec6} {r : Vec6 × PlaneReg} (hi : s.PoseInv)
    (ha : s.numberPoses = 1 → acc = 0) (h : s.increment acc = .ok r) :
    r.2.PoseInv ∧ (r.2.numberPoses = 1 → r.1 = 0) ∧ r.2.numberPoses = s.numberPoses ∧ r.2.traj = s.traj := by
  rw [increment] at h
  split at h
  · cases h
    exact ⟨hi, fun h1 => by rw [ha h1]; simp, rfl, rfl⟩
  · split at h
    · cases h
    · rename_i v hv
      cases h
      refine ⟨⟨hi.bound, hi.len, hi.first, fun h1 => ?_⟩, fun h1 => ?_, rfl, rfl⟩
      · have hp := hi.single h1
        rw [hp] at hv
        have : v = 0 := by simpa using hv.symm
        change s.prev.set _ _ = _
        rw [hp, this, ha h1]
        simp
      · have hp := hi.single h1
        rw [hp] at hv
        have : v = 0 := by simpa using hv.symm
        change _ • v - _ • acc = 0
        rw [this, ha h1]
        simp
  · cases h

theorem gradStep_inv {e : EigSolver} {s : PlaneReg} {r : ℝ × PlaneReg} (hi : s.PoseInv) (h : s.gradStep e = .ok r) :
    r.2.PoseInv := by
  rw [gradStep] at h
  obtain ⟨⟨c, s1⟩, h1, h⟩ := Out.bind_eq_ok.mp h
  obtain ⟨⟨acc, s2⟩, h2, h⟩ := Out.bind_eq_ok.mp h
  obtain ⟨⟨dxi, s3⟩, h3, h⟩ := Out.bind_eq_ok.mp h
  obtain ⟨s4, h4, h⟩ := Out.bind_eq_ok.mp h
  cases h
  have i1 := hi.planesOnly (error_frame h1)
  obtain ⟨f2, z2⟩ := accGradient_frame h2
  have i2 := i1.planesOnly f2
  obtain ⟨ps, hps⟩ := f2
  have hps : s2 = _ := hps
  obtain ⟨i3, z3, -, -⟩ := increment_inv i2 (fun hn => z2 (PoseInv.times_single (by rw [hps] at hn; exact hn))) h3
  exact moveLast_inv i3 z3 h4

theorem allPosesStep_inv {e : EigSolver} {s : PlaneReg} {r : ℝ × PlaneReg} (hi : s.PoseInv)
    (h : s.allPosesStep e = .ok r) : r.2.PoseInv := by
  rw [allPosesStep] at h
  obtain ⟨⟨c, s1⟩, h1, h⟩ := Out.bind_eq_ok.mp h
  obtain ⟨⟨l, s2⟩, h2, h⟩ := Out.bind_eq_ok.mp h
  have i2 := (hi.planesOnly (error_frame h1)).planesOnly
    (Out.mapAccum_rel (R := PlanesOnly) PlanesOnly.refl (fun _ _ _ => PlanesOnly.trans) (fun _ _ _ => gradAt_frame) _ _ _ h2)
  dsimp only at h
  split at h
  · cases h; exact i2
  · split at h
    · cases h
    · obtain ⟨traj, h3, h⟩ := Out.bind_eq_ok.mp h
      cases h
      obtain ⟨a, b⟩ := updatePoses_ok h3
      refine i2.withTraj a (b 0 fun hh => ?_)
      obtain ⟨p, hp, hp0⟩ := List.mem_map.mp hh
      have := (List.of_mem_zip (show (p.1, p.2) ∈ _ from hp)).1
      rw [hp0, times, List.mem_range'_1] at this
      omega

/-- The loops of the gradient methods as sequences of steps. -/
theorem gradLoop_trace {step : PlaneReg → Out (ℝ × PlaneReg)} {single : Bool} : ∀ (k iters : ℕ) (prevErr : ℝ)
    (s s' : PlaneReg), 10000 - iters = k → gradLoop step single iters prevErr s = .ok s' →
    ∃ (n : ℕ) (o : ℕ → PlaneReg) (err : ℕ → ℝ), s'.solveIters = iters + n ∧ 1 ≤ n ∧ o 0 = s ∧ err 0 = prevErr ∧
      o n = s' ∧
      (∀ k < n, ∃ x, step (o k) = .ok (err (k + 1), x) ∧ o (k + 1) = { x with solveIters := iters + k + 1 }) ∧
      (∀ k, k + 1 < n → 1e-4 < |err k - err (k + 1)|) ∧ (single = true → n = 1) ∧ (n = 1 ∨ iters + n ≤ 10000) ∧
      (single = false → iters + n < 10000 → |err (n - 1) - err n| ≤ 1e-4) := by
  intro k
  induction k using Nat.strong_induction_on with
  | _ k ih =>
    intro iters prevErr s s' hk h
    rw [gradLoop] at h
    obtain ⟨⟨err, s1⟩, h1, h⟩ := Out.bind_eq_ok.mp h
    dsimp only at h
    split at h
    · rename_i hc
      obtain ⟨hc1, hc2, hc3⟩ := hc
      obtain ⟨n, o, er, a1, a2, a3, a4, a5, a6, a7, a8, a9, a10⟩ :=
        ih (10000 - (iters + 1)) (by omega) (iters + 1) err _ s' rfl h
      refine ⟨n + 1, fun k => if k = 0 then s else o (k - 1), fun k => if k = 0 then prevErr else er (k - 1),
        by omega, by omega, rfl, rfl, by simpa using a5, ?_, ?_, ?_, ?_, ?_⟩
      · intro j hj
        rcases Nat.eq_zero_or_pos j with rfl | hj0
        · exact ⟨s1, by simpa [a4] using h1, by simpa using a3⟩
        · obtain ⟨x, hx1, hx2⟩ := a6 (j - 1) (by omega)
          have e1 : j - 1 + 1 = j := by omega
          rw [e1] at hx1 hx2
          refine ⟨x, ?_, ?_⟩
          · simpa [show j ≠ 0 by omega] using hx1
          · simp only [Nat.add_sub_cancel, Nat.succ_ne_zero, if_false, hx2]
            congr 1
            omega
      · intro j hj
        rcases Nat.eq_zero_or_pos j with rfl | hj0
        · simpa [a4] using hc1
        · have := a7 (j - 1) (by omega)
          rw [show j - 1 + 1 = j by omega] at this
          simpa [show j ≠ 0 by omega] using this
      · intro hs; rw [hs] at hc2; cases hc2
      · right
        rcases a9 with a9 | a9 <;> omega
      · intro hs hlt
        have := a10 hs (by omega)
        simpa [show n ≠ 0 by omega] using this
    · rename_i hc
      cases h
      refine ⟨1, fun k => if k = 0 then s else { s1 with solveIters := iters + 1 },
        fun k => if k = 0 then prevErr else err, rfl, le_rfl, rfl, rfl, rfl, ?_, ?_, fun _ => rfl, Or.inl rfl, ?_⟩
      · intro j hj
        obtain rfl : j = 0 := by omega
        exact ⟨s1, by simpa using h1, by simp⟩
      · intro j hj; omega
      · intro hs hlt
        by_contra hcon
        exact hc ⟨by simpa using hcon, hs, hlt⟩

theorem gradLoop_inv {step : PlaneReg → Out (ℝ × PlaneReg)} {single : Bool} {iters : ℕ} {prevErr : ℝ} {s s' : PlaneReg}
    {I : PlaneReg → Prop} (hI : ∀ s k, I s → I { s with solveIters := k })
    (hs : ∀ s r, I s → step s = .ok r → I r.2) (hi : I s) (h : gradLoop step single iters prevErr s = .ok s') : I s' := by
  obtain ⟨n, o, er, -, -, a3, -, a5, a6, -⟩ := gradLoop_trace _ _ _ _ _ rfl h
  have : ∀ k ≤ n, I (o k) := by
    intro k
    induction k with
    | zero => intro _; rw [a3]; exact hi
    | succ k ih =>
      intro hk
      obtain ⟨x, hx, hx'⟩ := a6 k (by omega)
      rw [hx']
      exact hI _ _ (hs _ _ (ih (by omega)) hx)
  rw [← a5]
  exact this n le_rfl

theorem interpolateGradient_inv {e : EigSolver} {single : Bool} {s s' : PlaneReg} (hi : s.PoseInv)
    (h : s.interpolateGradient e single = .ok s') : s'.PoseInv :=
  gradLoop_inv (step := gradStep e) (s := { s with solveIters := 0 }) (fun _ _ h => h.frame rfl rfl rfl)
    (fun _ _ => gradStep_inv) (hi.frame rfl rfl rfl) h

theorem gradientAllPoses_inv {e : EigSolver} {single : Bool} {s s' : PlaneReg} (hi : s.PoseInv)
    (h : s.gradientAllPoses e single = .ok s') : s'.PoseInv :=
  gradLoop_inv (step := allPosesStep e) (s := { s with solveIters := 0 }) (fun _ _ h => h.frame rfl rfl rfl)
    (fun _ _ => allPosesStep_inv) (hi.frame rfl rfl rfl) h

theorem initLoop_inv {svd : Mat3 → SVD3} {yAll : List Vec3} {s : PlaneReg} : ∀ {ts : List ℕ} {traj : List SE3}
    {r : ℕ × List SE3}, initLoop svd yAll s ts traj = .ok r → 0 ∉ ts → r.2.length = traj.length ∧ r.2[0]? = traj[0]? := by
  intro ts
  induction ts with
  | nil => intro traj r h _; cases h; exact ⟨rfl, rfl⟩
  | cons t ts ih =>
    intro traj r h h0
    rw [initLoop] at h
    obtain ⟨rows, -, h⟩ := Out.bind_eq_ok.mp h
    obtain ⟨⟨b, T⟩, -, h⟩ := Out.bind_eq_ok.mp h
    dsimp only at h
    split at h
    · split at h
      · obtain ⟨a, b⟩ := ih h fun hh => h0 (List.mem_cons_of_mem _ hh)
        rw [List.length_set] at a
        refine ⟨a, b.trans (List.getElem?_set_ne ?_)⟩
        rintro rfl
        exact h0 List.mem_cons_self
      · cases h
    · cases h; exact ⟨rfl, rfl⟩

theorem solveInitialize_inv {svd : Mat3 → SVD3} {s : PlaneReg} {r : ℕ × PlaneReg} (hi : s.PoseInv)
    (h : s.solveInitialize svd = .ok r) : r.2.PoseInv := by
  rw [solveInitialize] at h
  obtain ⟨⟨l, s1⟩, h1, h⟩ := Out.bind_eq_ok.mp h
  obtain ⟨⟨b, traj⟩, h2, h⟩ := Out.bind_eq_ok.mp h
  cases h
  obtain ⟨a, b⟩ := initLoop_inv h2 (by rw [times, List.mem_range'_1]; omega)
  exact (hi.planesOnly (eachPlane_frame h1)).withTraj a b

end PlaneReg

/-! ## The loops of `Optimizer` -/

namespace OptDense

variable {σ : Type} {P : DenseProblem σ} {I J K : σ → Prop}

/-- An invariant `I` which `bookkeep_state` strengthens to `J`; `K` is established by every step and by restoring. -/
theorem solve_inv (hJI : ∀ o, J o → I o) (hbook : ∀ o o', I o → P.bookkeep o = .ok o' → J o')
    (herrI : ∀ o r, I o → P.error o = .ok r → I r.2) (herrJ : ∀ o r, J o → P.error o = .ok r → J r.2)
    (hstepI : ∀ s s' b, I s.obj → oneIteration P b s = .ok s' → I s'.obj)
    (hstepJ : ∀ s s' b, J s.obj → oneIteration P b s = .ok s' → J s'.obj)
    (hrest : ∀ o o', J o → P.restore o = .ok o' → J o')
    (kstep : ∀ s s' b, I s.obj → oneIteration P b s = .ok s' → K s'.obj)
    (kerr : ∀ o r, I o → K o → P.error o = .ok r → K r.2)
    (krest : ∀ o o', J o → P.restore o = .ok o' → K o') {m : OptMethod} {maxIters : ℕ} {lambda : ℝ} {s : OptDense σ}
    {r : ℕ × OptDense σ} (hi : I s.obj) (h : s.solve P m maxIters lambda = .ok r) :
    I r.2.obj ∧ K r.2.obj := by
  have lmCase : ∀ {s : OptDense σ}, I s.obj → levenbergMarquardt P s = .ok r → I r.2.obj ∧ K r.2.obj := by
    intro s hi h
    rw [levenbergMarquardt] at h
    obtain ⟨⟨prev, s1⟩, h1, h⟩ := Out.bind_eq_ok.mp h
    obtain ⟨x, h2, rfl⟩ := error_ok h1
    have hstep : ∀ {s s' : OptDense σ} {c : ℝ}, I s.obj → s.lmStep P = .ok (c, s') → J s'.obj ∧ K s'.obj := by
      intro s s' c hi h
      rw [lmStep] at h
      obtain ⟨o, h3, h⟩ := Out.bind_eq_ok.mp h
      obtain ⟨s2, h4, h⟩ := Out.bind_eq_ok.mp h
      obtain ⟨y, h5, rfl⟩ := error_ok h
      have j0 := hbook _ _ hi h3
      have j1 := hstepJ { s with obj := o } _ _ j0 h4
      exact ⟨herrJ _ _ j1 h5, kerr _ _ (hJI _ j1) (kstep { s with obj := o } _ _ (hJI _ j0) h4) h5⟩
    have hfin : ∀ {s : OptDense σ} {b : Bool} {k : ℕ} {r : ℕ × OptDense σ}, J s.obj ∧ K s.obj → s.finish P b k = .ok r →
        I r.2.obj ∧ K r.2.obj := by
      intro s b k r ⟨hj, hk⟩ h
      obtain ⟨x, c, o, h3, h4, rfl⟩ := finish_ok h
      have jx : J x ∧ K x := by
        cases b with
        | true => cases h3; exact ⟨hj, hk⟩
        | false => exact ⟨hrest _ _ hj h3, krest _ _ hj h3⟩
      exact ⟨hJI _ (herrJ _ _ jx.1 h4), kerr _ _ (hJI _ jx.1) jx.2 h4⟩
    refine (?_ : ∀ {mi it : ℕ} {pr : ℝ} {s : OptDense σ} {r : ℕ × OptDense σ}, LMRun P mi it pr s r → I s.obj →
      I r.2.obj ∧ K r.2.obj)
      (lmLoop_run _ _ _ _ _ rfl h) (herrI _ _ hi h2)
    intro mi it pr s r hrun hi
    induction hrun with
    | rejectLast h1 h2 h3 _ h4 =>
      obtain ⟨o1, h6, rfl⟩ := reject_ok h3
      have hj := (hstep hi h1).1
      have hjk : J o1 ∧ K o1 := ⟨hrest _ _ hj h6, krest _ _ hj h6⟩
      refine hfin ?_ h4
      exact hjk
    | rejectNext h1 h2 h3 _ _ ih =>
      obtain ⟨o1, h6, rfl⟩ := reject_ok h3
      exact ih (hJI _ (hrest _ _ (hstep hi h1).1 h6))
    | converged h1 h2 h3 => exact ⟨hJI _ (hstep hi h1).1, (hstep hi h1).2⟩
    | acceptLast h1 h2 _ _ h4 =>
      have hj := hstep hi h1
      exact hfin (s := adapt _ _) hj h4
    | acceptNext h1 h2 _ _ _ ih =>
      have hj := hstep hi h1
      exact ih (hJI _ hj.1)
  cases m with
  | newtonRaphson =>
    change newtonRaphson P _ = _ at h
    rw [newtonRaphson] at h
    obtain ⟨⟨prev, s1⟩, h1, h⟩ := Out.bind_eq_ok.mp h
    obtain ⟨x, h2, rfl⟩ := error_ok h1
    obtain ⟨n, o, e, -, hn, ho, -, hl, hs, -⟩ := nrLoop_trace _ _ _ _ _ rfl h
    have : ∀ k ≤ n, I (o k).obj ∧ (1 ≤ k → K (o k).obj) := by
      intro k
      induction k with
      | zero => intro _; rw [ho]; exact ⟨herrI _ _ hi h2, by omega⟩
      | succ k ih =>
        intro hk
        have := hs k (by omega)
        rw [nrStep] at this
        obtain ⟨t, ht1, ht2⟩ := Out.bind_eq_ok.mp this
        obtain ⟨y, hy, hy2⟩ := error_ok ht2
        rw [hy2]
        have i0 := (ih (by omega)).1
        have i1 := hstepI _ _ _ i0 ht1
        exact ⟨herrI _ _ i1 hy, fun _ => kerr _ _ i1 (kstep _ _ _ i0 ht1) hy⟩
    rw [← hl]
    exact ⟨(this n le_rfl).1, (this n le_rfl).2 hn⟩
  | lmSpher => exact lmCase (s := { s with method := .lmSpher, maxIters := maxIters, lambda := lambda }) hi h
  | lmEllip => exact lmCase (s := { s with method := .lmEllip, maxIters := maxIters, lambda := lambda }) hi h

end OptDense

namespace PlaneReg

/-- With one pose the book-kept pose is the identity. -/
def BookInv (s : PlaneReg) : Prop := s.PoseInv ∧ (s.numberPoses = 1 → s.booked = SE3.default)

theorem problem_update (e : EigSolver) (dx : Fin 6 → ℝ) (s : PlaneReg) :
    (problem e).update 6 dx s = s.moveLast (stat6 dx) := by
  change (if h : (6 : ℕ) = 6 then s.moveLast (stat6 fun k => dx (Fin.cast h.symm k)) else .ub) = _
  rw [dif_pos rfl]
  rfl

theorem problem_step {e : EigSolver} {s s' : OptDense PlaneReg} {b : Bool} (hi : s.obj.PoseInv)
    (h : s.oneIteration (problem e) b = .ok s') : s'.obj.PoseInv ∧ s'.obj.booked = s.obj.booked ∧
      s'.obj.numberPoses = s.obj.numberPoses ∧ (s.obj.numberPoses ≠ 0 → s'.obj.Interpolated) := by
  obtain ⟨en, o, o', sys, h1, h2, -, rfl⟩ := OptDense.oneIteration_ok h
  change (gradHess6 e s.obj >>= _) = _ at h1
  obtain ⟨⟨⟨g6, H6⟩, s1⟩, h3, h1⟩ := Out.bind_eq_ok.mp h1
  dsimp only at h1
  rw [Out.ok.injEq, Prod.mk.injEq] at h1
  obtain ⟨rfl, rfl⟩ := h1
  obtain ⟨f, z⟩ := gradHess6_frame h3
  have i1 := hi.planesOnly f
  dsimp only at h2
  rw [problem_update] at h2
  obtain ⟨ps, f⟩ := f
  have f : s1 = _ := f
  refine ⟨moveLast_inv i1 (fun hn => ?_) h2, ?_⟩
  · have hz : g6 = 0 := z (PoseInv.times_single (by rw [f] at hn; exact hn))
    have hd : dyn6 g6 = 0 := by rw [hz]; rfl
    funext i
    simp only [hd, mulVec_zero, neg_zero]
    rfl
  · rw [moveLast] at h2
    obtain ⟨T, -, h2⟩ := Out.bind_eq_ok.mp h2
    have h4 := h2
    rw [placeLast] at h2
    obtain ⟨traj, -, h2⟩ := Out.bind_eq_ok.mp h2
    cases h2
    have e1 : s1.numberPoses = s.obj.numberPoses := by rw [f]
    exact ⟨by rw [f], e1, fun hn => placeLast_interpolated h4 (by rw [e1]; exact hn) i1.bound (i1.len (by rw [e1]; exact hn))⟩

theorem bookkeep_ok {s s' : PlaneReg} (h : s.bookkeep = .ok s') :
    ∃ T, s.traj.getLast? = some T ∧ s' = { s with booked := T } := by
  rw [bookkeep] at h
  obtain ⟨T, h1, h⟩ := Out.bind_eq_ok.mp h
  cases h
  exact ⟨T, lastPose_ok h1, rfl⟩

theorem restore_ok {e : EigSolver} {s s' : PlaneReg} (h : s.restore e = .ok s') :
    ∃ s1, s.placeLast s.booked = .ok s1 ∧ PlanesOnly s1 s' ∧ ∃ c, s1.error e = .ok (c, s') := by
  rw [restore] at h
  obtain ⟨T, -, h⟩ := Out.bind_eq_ok.mp h
  obtain ⟨s1, h1, h⟩ := Out.bind_eq_ok.mp h
  obtain ⟨⟨c, s2⟩, h2, h⟩ := Out.bind_eq_ok.mp h
  cases h
  exact ⟨s1, h1, error_frame h2, c, h2⟩

theorem optimizer_inv {e : EigSolver} {m : OptMethod} {maxIters : ℕ} {lambda : ℝ} {s : OptDense PlaneReg}
    {r : ℕ × OptDense PlaneReg} (hi : s.obj.PoseInv) (h : s.solve (problem e) m maxIters lambda = .ok r) :
    r.2.obj.PoseInv ∧ (r.2.obj.numberPoses ≠ 0 → r.2.obj.Interpolated) := by
  refine OptDense.solve_inv (I := PoseInv) (J := BookInv) (K := fun s => s.numberPoses ≠ 0 → s.Interpolated)
    (fun o h => h.1) ?_ ?_ ?_ ?_ ?_ ?_ ?_ ?_ ?_ hi h
  · intro o o' hi h
    obtain ⟨T, hT, rfl⟩ := bookkeep_ok h
    refine ⟨hi.frame rfl rfl rfl, fun hn => ?_⟩
    rw [hi.single_traj hn] at hT
    simpa using hT.symm
  · intro o r hi h
    exact hi.planesOnly (error_frame h)
  · intro o r hi h
    have f := error_frame h
    refine ⟨hi.1.planesOnly f, ?_⟩
    obtain ⟨ps, f⟩ := f
    rw [f]
    exact hi.2
  · intro s s' b hi h
    exact (problem_step hi h).1
  · intro s s' b hi h
    obtain ⟨h1, h2, h3, -⟩ := problem_step hi.1 h
    exact ⟨h1, fun hn => by rw [h2]; exact hi.2 (by rw [← h3]; exact hn)⟩
  · intro o o' hi h
    obtain ⟨s1, h1, h2, -⟩ := restore_ok h
    have i1 := placeLast_inv hi.1 hi.2 h1
    refine ⟨i1.planesOnly h2, fun hn => ?_⟩
    rw [placeLast] at h1
    obtain ⟨traj, -, h1⟩ := Out.bind_eq_ok.mp h1
    cases h1
    obtain ⟨ps, rfl⟩ := h2
    exact hi.2 hn
  · intro s s' b hi h
    obtain ⟨-, -, h1, h2⟩ := problem_step hi h
    rw [h1]
    exact h2
  · intro o r hi hk h
    obtain ⟨ps, f⟩ := error_frame h
    rw [f]
    exact hk
  · intro o o' hi h hn
    obtain ⟨s1, h1, ⟨ps, rfl⟩, -⟩ := restore_ok h
    have e1 : s1.numberPoses = o.numberPoses := by
      rw [placeLast] at h1
      obtain ⟨traj, -, h1⟩ := Out.bind_eq_ok.mp h1
      cases h1
      rfl
    have hn : s1.numberPoses ≠ 0 := hn
    rw [e1] at hn
    have hint : s1.Interpolated := placeLast_interpolated h1 hn hi.1.bound (hi.1.len hn)
    exact hint

theorem lift_inv {f : PlaneReg → Out PlaneReg} {s s' : OptDense PlaneReg} {I : PlaneReg → Prop}
    (hf : ∀ o o', I o → f o = .ok o' → I o') (hi : I s.obj) (h : lift f s = .ok s') : I s'.obj := by
  rw [lift] at h
  obtain ⟨o, h1, h⟩ := Out.bind_eq_ok.mp h
  cases h
  exact hf _ _ hi h1

theorem solve_inv {e : EigSolver} {svd : Mat3 → SVD3} {mode : SolveMode} {single : Bool} {s : OptDense PlaneReg}
    {r : ℕ × OptDense PlaneReg} (hi : s.obj.PoseInv) (h : solve e svd mode single s = .ok r) : r.2.obj.PoseInv := by
  rw [solve] at h
  obtain ⟨⟨c, o⟩, h1, h⟩ := Out.bind_eq_ok.mp h
  have i0 : PoseInv { s.obj with mode := mode } := hi.frame rfl rfl rfl
  have i1 : PoseInv { o with initialError := c } := (i0.planesOnly (error_frame h1)).frame rfl rfl rfl
  dsimp only at h
  split at h
  · obtain ⟨⟨b, o'⟩, h2, h⟩ := Out.bind_eq_ok.mp h
    cases h
    exact solveInitialize_inv i1 h2
  · obtain ⟨s2, h2, h⟩ := Out.bind_eq_ok.mp h
    cases h
    exact lift_inv (I := PoseInv) (fun _ _ => gradientAllPoses_inv) i1 h2
  · obtain ⟨s2, h2, h⟩ := Out.bind_eq_ok.mp h
    cases h
    exact lift_inv (I := PoseInv) (fun _ _ => interpolateGradient_inv) i1 h2
  · obtain ⟨s2, h2, h⟩ := Out.bind_eq_ok.mp h
    cases h
    exact (optimizer_inv i1 h2).1.frame rfl rfl rfl
  · cases h; exact i1
  · obtain ⟨s2, h2, h⟩ := Out.bind_eq_ok.mp h
    cases h
    exact (optimizer_inv i1 h2).1.frame rfl rfl rfl
  · obtain ⟨s2, h2, h⟩ := Out.bind_eq_ok.mp h
    cases h
    exact (optimizer_inv i1 h2).1.frame rfl rfl rfl
  · cases h; exact i1

theorem emplace_inv {s : PlaneReg} (hi : s.PoseInv) (id : ℕ) (p : Plane) : (s.emplace id p).PoseInv := by
  rw [emplace]
  split
  · exact hi
  · exact hi.frame rfl rfl rfl

theorem op_inv {e : EigSolver} {svd : Mat3 → SVD3} {op : Op} {s s' : OptDense PlaneReg} (hi : s.obj.PoseInv)
    (h : op.run e svd s = .ok s') : s'.obj.PoseInv := by
  cases op with
  | setNumbers a b => cases h; exact setNumbers_inv _ _ _
  | resetSolution => cases h; exact resetSolution_inv hi
  | addPlane id p => cases h; exact emplace_inv hi _ _
  | addNewPlane id => cases h; exact emplace_inv hi _ _
  | pushPoint id t x =>
    refine lift_inv (I := PoseInv) (fun o o' hi h => ?_) hi h
    rw [pushPoint] at h
    split at h
    · cases h
    · obtain ⟨p, -, h⟩ := Out.bind_eq_ok.mp h
      cases h
      exact hi.frame rfl rfl rfl
  | setLastPose T => exact lift_inv (I := PoseInv) (fun _ _ => setLastPose_inv) hi h
  | setAlpha a => cases h; exact hi.frame rfl rfl rfl
  | setBeta b => cases h; exact hi.frame rfl rfl rfl
  | solve mode single =>
    obtain ⟨r, h1, h⟩ := Out.bind_eq_ok.mp h
    cases h
    exact solve_inv hi h1
  | solveInitialize =>
    refine lift_inv (f := (fun o => o.solveInitialize svd >>= fun r => .ok r.2)) (I := PoseInv) (fun o o' hi h => ?_) hi h
    obtain ⟨r, h1, h⟩ := Out.bind_eq_ok.mp h
    cases h
    exact solveInitialize_inv hi h1
  | interpolateGradient single => exact lift_inv (I := PoseInv) (fun _ _ => interpolateGradient_inv) hi h
  | gradientAllPoses single => exact lift_inv (I := PoseInv) (fun _ _ => gradientAllPoses_inv) hi h
  | currentError =>
    refine lift_inv (f := (fun o => o.error e >>= fun r => .ok r.2)) (I := PoseInv) (fun o o' hi h => ?_) hi h
    obtain ⟨r, h1, h⟩ := Out.bind_eq_ok.mp h
    cases h
    exact hi.planesOnly (error_frame h1)
  | evaluate =>
    refine lift_inv (f := (fun o => o.evaluate e >>= fun r => .ok r.2)) (I := PoseInv) (fun o o' hi h => ?_) hi h
    obtain ⟨r, h1, h⟩ := Out.bind_eq_ok.mp h
    cases h
    rw [evaluate] at h1
    obtain ⟨⟨c, s1⟩, h2, h1⟩ := Out.bind_eq_ok.mp h1
    dsimp only at h1
    split at h1
    · cases h1
    · cases h1
      exact hi.planesOnly (error_frame h2)
  | external id p => cases h; exact hi.frame rfl rfl rfl

theorem run_inv {e : EigSolver} {svd : Mat3 → SVD3} {ops : List Op} {s s' : OptDense PlaneReg} (hi : s.obj.PoseInv)
    (h : run e svd ops s = .ok s') : s'.obj.PoseInv := by
  induction ops generalizing s with
  | nil => cases h; exact hi
  | cons op ops ih =>
    obtain ⟨s1, h1, h⟩ := Out.bind_eq_ok.mp h
    exact ih (op_inv hi h1) h

theorem new_inv : new.PoseInv :=
  ⟨by norm_num [new], fun h => absurd rfl h, fun h => absurd rfl h, fun h => by simp [new] at h⟩

end PlaneReg

end Mrob
