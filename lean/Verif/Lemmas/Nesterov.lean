import Verif.Lemmas.PlaneDescent
import Verif.Spec.Nesterov

/-! # Lemmas for property C91 -/

open Matrix

namespace Mrob

open Spec

namespace PlaneReg

/-- The velocities of Nesterov's method for given gradients. -/
noncomputable def velo (a b : ℝ) (g : ℕ → Vec6) : ℕ → Vec6
  | 0 => 0
  | k + 1 => b • velo a b g k - a • g k

/-- The positions. -/
noncomputable def posn (a b : ℝ) (g : ℕ → Vec6) : ℕ → Vec6
  | 0 => 0
  | k + 1 => posn a b g k + velo a b g (k + 1)

theorem nesterov_velo (a b : ℝ) (g : ℕ → Vec6) : Nesterov a b g (posn a b g) (velo a b g) :=
  ⟨rfl, rfl, fun _ => rfl, fun _ => rfl⟩

theorem look_step (a b : ℝ) (g : ℕ → Vec6) (k : ℕ) :
    lookAhead b (posn a b g) (velo a b g) (k + 1) - lookAhead b (posn a b g) (velo a b g) k =
      (b * b) • velo a b g k - ((1 + b) * a) • g k := by
  rw [lookAhead, lookAhead, posn, velo]
  module

theorem trajTo_length (n : ℕ) (T : SE3) : (trajTo n T).length = n := by rw [trajTo, List.length_map, List.length_range]

theorem trajTo_first {n : ℕ} (hn : 2 ≤ n) (T : SE3) : (trajTo n T)[0]? = some SE3.default := by
  rw [trajTo, List.getElem?_map, List.getElem?_range (by omega)]
  rfl

theorem trajTo_last {n : ℕ} (hn : 2 ≤ n) (T : SE3) : (trajTo n T).getLast? = some T := by
  rw [List.getLast?_eq_getElem?, trajTo_length, trajTo, List.getElem?_map, List.getElem?_range (by omega), Option.map_some,
    if_neg (by omega), if_pos (by omega)]

theorem trajTo_lastRow {n : ℕ} {T : SE3} (hT : LastRow T.T) : ∀ A ∈ trajTo n T, LastRow A.T := by
  intro A hA
  rw [trajTo_eq] at hA
  obtain ⟨t, -, rfl⟩ := List.mem_map.mp hA
  exact lastRow_poseAt hT t

/-- What the loop keeps. -/
structure Momentum (n : ℕ) (a b : ℝ) (s : PlaneReg) : Prop where
  pose : s.PoseInv
  prep : s.Prepared
  num : s.numberPoses = n
  mode : s.mode = .gradientBengiosNag
  alpha : s.alpha = a
  beta : s.beta = b
  row : ∀ T ∈ s.traj, LastRow T.T

theorem Momentum.step {e : EigSolver} {n : ℕ} {a b : ℝ} {s x : PlaneReg} {err : ℝ} (h : s.Momentum n a b) (hn : 2 ≤ n)
    {v : Vec6} (hv : s.prev.getLast? = some v) (hs : s.gradStep e = .ok (err, x)) :
    x.Momentum n a b ∧ x.prev.getLast? = some (b • v - a • s.accOf e) ∧ ∃ T, s.traj.getLast? = some T ∧
      x.traj = trajTo n (T.updateLhs ((b * b) • v - ((1 + b) * a) • s.accOf e)) := by
  have hl := h.pose.len (by rw [h.num]; omega)
  obtain ⟨T, hT⟩ : ∃ T, s.traj.getLast? = some T := by
    rw [List.getLast?_eq_getElem?, hl, h.num]
    exact ⟨_, List.getElem?_eq_getElem (by rw [hl, h.num]; omega)⟩
  obtain ⟨-, -, h1, dxi, ps, prev, h2, h3⟩ := gradStep_value h.pose h.prep (by rw [h.num]; exact hn) hT hs
  rcases h3 with ⟨hm, -⟩ | ⟨-, w, hw, hd, hpv⟩
  · rw [h.mode] at hm; simp at hm
  rw [hv, Option.some.injEq] at hw
  subst hw
  rw [h.alpha, h.beta] at hd hpv
  have ht : x.traj = trajTo n (T.updateLhs dxi) := by rw [h2, ← h.num]
  have hr : LastRow (T.updateLhs dxi).T := lastRow_updateLhs (h.row T (List.mem_of_getLast? hT)) dxi
  refine ⟨⟨?_, h1.prepared h.prep (by rw [h2]), by rw [h2]; exact h.num, by rw [h2]; exact h.mode, by rw [h2]; exact h.alpha,
    by rw [h2]; exact h.beta, by rw [ht]; exact trajTo_lastRow hr⟩, ?_, T, hT, by rw [ht, hd]⟩
  · have hxn : x.numberPoses = n := by rw [h2]; exact h.num
    refine ⟨by rw [hxn, ← h.num]; exact h.pose.bound, fun _ => by rw [ht, trajTo_length, hxn], fun _ => by rw [ht, trajTo_first hn],
      fun h => by rw [hxn] at h; omega⟩
  · have hpx : x.prev = prev := by rw [h2]
    have hne : s.prev.length ≠ 0 := by
      intro h0
      rw [List.length_eq_zero_iff] at h0
      rw [h0] at hv
      simp at hv
    rw [hpx, hpv, List.getLast?_eq_getElem?, List.length_set, List.getElem?_set_self (by omega)]

theorem Momentum.iters {n : ℕ} {a b : ℝ} {s : PlaneReg} (h : s.Momentum n a b) (k : ℕ) :
    ({ s with solveIters := k } : PlaneReg).Momentum n a b :=
  ⟨h.pose.frame rfl rfl rfl, h.prep, h.num, h.mode, h.alpha, h.beta, h.row⟩

theorem movedTraj_single {s : PlaneReg} (hl : s.traj.length = s.numberPoses) (t : ℕ) (xi : Vec6) (r : ℝ) :
    s.movedTraj (r • fun j => if j = t then xi else 0) = s.traj.modify t fun T => T.updateLhs (r • xi) := by
  refine List.ext_getElem? fun j => ?_
  rcases lt_or_ge j s.numberPoses with h | h
  · have hj : j < s.traj.length := by omega
    rw [movedTraj, List.getElem?_map, List.getElem?_range h, Option.map_some, List.getElem?_modify, poseNow,
      List.getElem?_eq_getElem hj, Option.getD_some, Pi.smul_apply]
    by_cases hjt : t = j
    · subst hjt
      simp
    · rw [if_neg (Ne.symm hjt), smul_zero, updateLhs_zero']
      simp [hjt]
  · rw [List.getElem?_eq_none (by simpa [movedTraj] using h), List.getElem?_eq_none (by rw [List.length_modify]; omega)]

/-- The gradient of a pose is the derivative of the cost of the estimated planes. -/
theorem poseGrad_deriv {e : EigSolver} {s : PlaneReg} (hp : s.Prepared) (hl : s.traj.length = s.numberPoses)
    (ht : ∀ T ∈ s.traj, LastRow T.T) {t : ℕ} (htn : t < s.numberPoses) (xi : Vec6) :
    HasDerivAt (fun r : ℝ => (s.planes.map fun q => planeCost (planeOf e s q.2)
      ((s.traj.modify t fun T => T.updateLhs (r • xi)).map SE3.T) q.2.points).sum) (s.poseGrad e t ⬝ᵥ xi) 0 := by
  have h := moved_deriv (e := e) hp hl ht (fun j => if j = t then xi else 0)
  simp only [movedTraj_single hl] at h
  have h2 : ∑ j ∈ Finset.range s.numberPoses, s.poseGrad e j ⬝ᵥ (if j = t then xi else 0) = s.poseGrad e t ⬝ᵥ xi := by
    rw [Finset.sum_eq_single t (fun j _ hj => by rw [if_neg hj, dotProduct_zero])
      (fun h => absurd (Finset.mem_range.mpr htn) h), if_pos rfl]
  rwa [h2] at h

theorem accOf_sum {e : EigSolver} {s : PlaneReg} (hi : s.PoseInv) (hn : 2 ≤ s.numberPoses) : s.accOf e =
    ∑ t ∈ Finset.Ico 1 s.numberPoses, ((t : ℝ) / (s.numberPoses - 1) / s.seen t / s.numberPoses) • s.poseGrad e t := by
  have h : ∀ t : ℕ, (t : ℝ) / (s.numberPoses - 1) = s.tau * t := fun t => (tau_eq (by omega) hi.bound t).symm
  simp only [h]
  rfl

end PlaneReg

end Mrob
