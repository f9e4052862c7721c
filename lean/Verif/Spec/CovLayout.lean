import Verif.Model.RegistrationPy

/-! # The two ways of storing a list of covariances in one matrix -/

namespace Spec

open Mrob

/-- The matrices below each other, a matrix with `3 N` rows and 3 columns. -/
def Stacked (m : MatX) (S : List Mat3) : Prop :=
  m.rows = 3 * S.length ∧ m.cols = 3 ∧ m.data.length = m.rows * m.cols ∧
    ∀ (k : ℕ) (hk : k < S.length) (r c : Fin 3), m.data[(3 * k + r) + c * m.rows]? = some (S[k] r c)

/-- The matrices beside each other, `[Cov_1, Cov_2, ..., Cov_N]`, a matrix with 3 rows and `3 N` columns: the layout
documented in pc_registration.hpp 72. -/
def SideBySide (m : MatX) (S : List Mat3) : Prop :=
  m.rows = 3 ∧ m.cols = 3 * S.length ∧ m.data.length = m.rows * m.cols ∧
    ∀ (k : ℕ) (hk : k < S.length) (r c : Fin 3), m.data[r + (3 * k + c) * m.rows]? = some (S[k] r c)

end Spec
