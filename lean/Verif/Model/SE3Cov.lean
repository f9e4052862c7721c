import Verif.Model.SE3

/-!
# Model of `src/geometry/SE3cov.cpp`
-/

open Matrix

namespace Mrob

/-- `brackets(A)`, SE3cov.cpp 12-15. -/
def br (A : Mat3) : Mat3 := -A.trace • (1 : Mat3) + A

/-- `brackets(A,B)`, SE3cov.cpp 17-20. -/
def br2 (A B : Mat3) : Mat3 := br A * br B + br (B * A)

/-- An `SE3Cov` object: pose and covariance. -/
@[ext] structure SE3Cov where
  /-- base class part -/
  pose : SE3
  /-- `covariance_` -/
  cov : Mat6

namespace SE3Cov

/-- Default constructor, SE3cov.cpp 6: the covariance is the identity. -/
def default : SE3Cov := ⟨SE3.default, 1⟩

/-- `compound_2nd_order`, SE3cov.cpp 28-37; also `mul`, `operator*` (105-113). -/
def compound2 (a b : SE3Cov) : SE3Cov :=
  ⟨a.pose.mul b.pose, a.cov + a.pose.adj * b.cov * a.pose.adjᵀ⟩

/-- The matrix `A_1` of `compound_4th_order`, SE3cov.cpp 48-55. -/
def mA1 (s : Mat6) : Mat6 :=
  Matrix.fromBlocks (br s.toBlocks₁₁) 0 (br (s.toBlocks₂₁ + s.toBlocks₁₂)) (br s.toBlocks₁₁)

/-- The matrix `A_2` of `compound_4th_order`, SE3cov.cpp 57-64. -/
def mA2 (s : Mat6) : Mat6 :=
  Matrix.fromBlocks (br s.toBlocks₁₁) 0 (br (s.toBlocks₂₁ + s.toBlocks₂₁ᵀ)) (br s.toBlocks₁₁)

/-- The matrix `B` of `compound_4th_order`, SE3cov.cpp 66-81. -/
def mB (s1 s2 : Mat6) : Mat6 :=
  let rhoRho := br2 s1.toBlocks₁₁ s2.toBlocks₂₂ + br2 s1.toBlocks₁₂ s2.toBlocks₂₁
    + br2 s1.toBlocks₂₁ s2.toBlocks₁₂ + br2 s1.toBlocks₂₂ s2.toBlocks₁₁
  let rhoPhi := br2 s1.toBlocks₁₁ s2.toBlocks₁₂ + br2 s1.toBlocks₂₁ s2.toBlocks₁₁
  let phiPhi := br2 s1.toBlocks₁₁ s2.toBlocks₁₁
  Matrix.fromBlocks phiPhi rhoPhiᵀ rhoPhi rhoRho

/-- Covariance computed by `compound_4th_order`, SE3cov.cpp 83-85. -/
noncomputable def cov4 (s1 s2 : Mat6) : Mat6 :=
  s1 + s2 + (1 / 12 : ℝ) • (mA1 s1 * s2 + s2 * (mA1 s1)ᵀ + mA2 s2 * s1 + s1 * (mA2 s2)ᵀ)
    + (1 / 4 : ℝ) • mB s1 s2

/-- `compound_4th_order`, SE3cov.cpp 40-95. -/
noncomputable def compound4 (a b : SE3Cov) : SE3Cov :=
  ⟨a.pose.mul b.pose, cov4 a.cov (a.pose.adj * b.cov * a.pose.adjᵀ)⟩

/-- `update_lhs` (and `update` in Python) of an `SE3Cov` object: inherited from `SE3` (SE3py.cpp 69-72 and 145, SE3.cpp
85-89), so only the pose changes. -/
noncomputable def updateLhs (a : SE3Cov) (dxi : Vec6) : SE3Cov := { a with pose := a.pose.updateLhs dxi }

/-- `update_rhs` of an `SE3Cov` object: inherited from `SE3` (SE3py.cpp 73-74 and 145, SE3.cpp 90-94). -/
noncomputable def updateRhs (a : SE3Cov) (dxi : Vec6) : SE3Cov := { a with pose := a.pose.updateRhs dxi }

end SE3Cov

/-- `mrob::curly_wedge`, SE3cov.cpp 115-122. -/
def curlyWedge (xi : Vec6) : Mat6 :=
  Matrix.fromBlocks (hat3 (head3 xi)) 0 (hat3 (tail3 xi)) (hat3 (head3 xi))

end Mrob
