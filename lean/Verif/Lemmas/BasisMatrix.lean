import Mathlib.LinearAlgebra.Matrix.Adjugate
import Verif.Lemmas.BasicSolution
import Verif.Lemmas.GeneratorExact

/-!
# The inverse of the matrix of a basis
-/

namespace MiniMip.Glop
open Generator (Coarse)

variable {lp : LinearProgram} {x : Int → ℚ} {basis : List ColOrRow} {inv : Nat → Nat → ℚ}

/-- The matrix of the basis. -/
noncomputable def LinearProgram.basisMatrix (lp : LinearProgram) (basis : List ColOrRow) :
    Matrix (Fin lp.rows.length) (Fin lp.rows.length) ℚ :=
  fun i j => lp.basisEntry i (basis.getD j (.row 0))

/-- The inverse. -/
def inverseMatrix (n : Nat) (inv : Nat → Nat → ℚ) : Matrix (Fin n) (Fin n) ℚ := fun k i => inv k i

theorem LinearProgram.IsBasic.at (h : lp.IsBasic x basis inv) (j : Fin lp.rows.length) :
    basis[(j : Nat)]? = some (basis.getD j (.row 0)) := by
  have : (j : Nat) < basis.length := by rw [h.length]; exact j.2
  rw [List.getD_eq_getElem?_getD, List.getElem?_eq_getElem this]
  rfl

theorem LinearProgram.IsBasic.left (h : lp.IsBasic x basis inv) :
    inverseMatrix _ inv * lp.basisMatrix basis = 1 := by
  ext k j
  rw [Matrix.mul_apply, Matrix.one_apply]
  have := h.inverse k k.2 j _ (h.at j)
  rw [Finset.sum_range] at this
  simp only [inverseMatrix, LinearProgram.basisMatrix]
  rw [this]
  simp only [Fin.ext_iff]

theorem LinearProgram.IsBasic.right (h : lp.IsBasic x basis inv) :
    lp.basisMatrix basis * inverseMatrix _ inv = 1 := mul_eq_one_comm.1 h.left

/-- The rows of a basis matrix are independent. -/
theorem LinearProgram.IsBasic.independent (h : lp.IsBasic x basis inv) {φ : Nat → ℚ}
    (hφ : ∀ b ∈ basis, ∑ i ∈ Finset.range lp.rows.length, φ i * lp.basisEntry i b = 0) :
    ∀ i < lp.rows.length, φ i = 0 := by
  intro i hi
  have h1 : Matrix.vecMul (fun i : Fin lp.rows.length => φ i) (lp.basisMatrix basis) = 0 := by
    ext j
    have := hφ _ (List.mem_of_getElem? (h.at j))
    rw [Finset.sum_range] at this
    exact this
  have h2 := congrArg (fun v => Matrix.vecMul v (inverseMatrix lp.rows.length inv)) h1
  simp only [Matrix.vecMul_vecMul, h.right, Matrix.vecMul_one, Matrix.zero_vecMul] at h2
  exact congrFun h2 ⟨i, hi⟩

/-- If the matrix is integral, its determinant is a denominator of the inverse. -/
theorem LinearProgram.IsBasic.coarse (h : lp.IsBasic x basis inv)
    (hI : ∀ i < lp.rows.length, ∀ j, ∃ z : ℤ, lp.coefficient i j = z) :
    ∃ N : ℕ, 0 < N ∧ (N : ℚ) = |(lp.basisMatrix basis).det| ∧
      ∀ k < lp.rows.length, ∀ i < lp.rows.length, Coarse N (inv k i) := by
  have hz : ∀ i j, ∃ z : ℤ, lp.basisMatrix basis i j = z := by
    intro i j
    unfold LinearProgram.basisMatrix
    cases basis.getD j (.row 0) with
    | col c => exact hI _ i.2 _
    | row r =>
      simp only [LinearProgram.basisEntry]
      split
      · exact ⟨1, by simp⟩
      · exact ⟨0, by simp⟩
  choose Z hZ using hz
  set ZM : Matrix (Fin lp.rows.length) (Fin lp.rows.length) ℤ := fun i j => Z i j with hZM
  have hM : lp.basisMatrix basis = ZM.map (Int.castRingHom ℚ) := by
    ext i j
    rw [hZ]; rfl
  have hdet : (lp.basisMatrix basis).det = (ZM.det : ℚ) := by
    rw [hM, ← RingHom.mapMatrix_apply, ← RingHom.map_det]; rfl
  have hne : (lp.basisMatrix basis).det ≠ 0 := by
    intro h0
    have := congrArg Matrix.det h.left
    rw [Matrix.det_mul, h0, mul_zero, Matrix.det_one] at this
    exact zero_ne_one this
  have hadj : (lp.basisMatrix basis).det • inverseMatrix lp.rows.length inv = (lp.basisMatrix basis).adjugate := by
    have := congrArg (fun A => A * inverseMatrix lp.rows.length inv) (Matrix.adjugate_mul (lp.basisMatrix basis))
    simp only [Matrix.mul_assoc, h.right, Matrix.mul_one, Matrix.smul_mul, Matrix.one_mul] at this
    exact this.symm
  have hadjZ : (lp.basisMatrix basis).adjugate = ZM.adjugate.map (Int.castRingHom ℚ) := by
    rw [hM, ← RingHom.mapMatrix_apply, ← RingHom.mapMatrix_apply, RingHom.map_adjugate]
  refine ⟨ZM.det.natAbs, ?_, ?_, ?_⟩
  · rw [Int.natAbs_pos]
    intro h0
    exact hne (by rw [hdet, h0]; simp)
  · rw [hdet, Nat.cast_natAbs, Int.cast_abs]
  · intro k hk i hi
    have h1 := congrFun (congrFun (hadj.trans hadjZ) ⟨k, hk⟩) ⟨i, hi⟩
    simp only [Matrix.smul_apply, inverseMatrix, Matrix.map_apply, smul_eq_mul, hdet] at h1
    have h1 : (ZM.det : ℚ) * inv k i = (ZM.adjugate ⟨k, hk⟩ ⟨i, hi⟩ : ℚ) := h1
    rw [Coarse, Nat.cast_natAbs, Int.cast_abs]
    rcases abs_choice (ZM.det : ℚ) with h2 | h2 <;> rw [h2]
    · exact ⟨_, h1⟩
    · exact ⟨-ZM.adjugate ⟨k, hk⟩ ⟨i, hi⟩, by rw [Int.cast_neg, neg_mul, h1]⟩

end MiniMip.Glop
