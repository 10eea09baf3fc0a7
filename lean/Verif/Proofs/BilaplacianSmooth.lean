import Verif.Proofs.EigenSmooth
import Verif.Proofs.BilaplacianEigs
import Mathlib.LinearAlgebra.Prod

/-!
# Local solutions of the eigenvalue problem for the bilaplacian depend smoothly on trace and eigenvalue
-/

namespace HyperHDG.BilaplacianEigs

open Spec Matrix LDG Bilaplacian _root_.Topology Filter

variable {dim nS nB : Nat}

/-- The halves of the trace as linear functions. -/
def upperMap : (Fin (2 * dim) → Fin (2 * nB) → ℝ) →ₗ[ℝ] (Fin (2 * dim) → Fin nB → ℝ) where
  toFun := upper
  map_add' _ _ := rfl
  map_smul' _ _ := rfl

/-- The second half. -/
def lowerMap : (Fin (2 * dim) → Fin (2 * nB) → ℝ) →ₗ[ℝ] (Fin (2 * dim) → Fin nB → ℝ) where
  toFun := lower
  map_add' _ _ := rfl
  map_smul' _ _ := rfl

section
variable (F : Form dim nS nB ℝ) (B : Matrix (Fin nS) (Fin nS) ℝ) (tau : ℝ)

/-- Coefficients of a local solution of one of the two problems. -/
abbrev Coeffs (dim nS : Nat) := (Fin dim → Fin nS → ℝ) × (Fin nS → ℝ)

/-- The part of the equations which does not depend on the eigenvalue. -/
def mixedLhs : (Coeffs dim nS × Coeffs dim nS) →ₗ[ℝ] (Coeffs dim nS × Coeffs dim nS) :=
  ((lhs F tau).comp (LinearMap.fst ℝ _ _) + (massTerm B).comp (LinearMap.snd ℝ _ _)).prod ((lhs F tau).comp (LinearMap.snd ℝ _ _))

/-- The part which is multiplied by it. -/
def mixedMass : (Coeffs dim nS × Coeffs dim nS) →ₗ[ℝ] (Coeffs dim nS × Coeffs dim nS) := (0 : _ →ₗ[ℝ] Coeffs dim nS).prod ((massTerm F.mass0).comp (LinearMap.fst ℝ _ _))

/-- The terms with the trace. -/
def mixedTrace : (Fin (2 * dim) → Fin (2 * nB) → ℝ) →ₗ[ℝ] (Coeffs dim nS × Coeffs dim nS) := ((traceTerm F tau).comp upperMap).prod ((traceTerm F tau).comp lowerMap)

theorem mixed_iff (eig : ℝ) (l : Fin (2 * dim) → Fin (2 * nB) → ℝ) (x z : Coeffs dim nS) :
    (IsSolution F tau 0 1 (moments F (upper l)) (B *ᵥ z.2) x.1 x.2 ∧ IsSolution F tau 0 1 (moments F (lower l)) (eig • (F.mass0 *ᵥ x.2) + 0) z.1 z.2) ↔
      mixedLhs F B tau (x, z) + eig • mixedMass F (x, z) = mixedTrace F tau l := by
  rw [LDG.isSolution_iff, LDG.isSolution_iff, neg_zero, zero_smul, zero_smul, add_zero, add_zero, add_zero, Prod.ext_iff (x := mixedLhs F B tau (x, z) + eig • mixedMass F (x, z))]
  have e1 : (mixedLhs F B tau (x, z) + eig • mixedMass F (x, z)).1 = lhs F tau x + massTerm B z + eig • 0 := rfl
  have e2 : (mixedLhs F B tau (x, z) + eig • mixedMass F (x, z)).2 = lhs F tau z + eig • massTerm F.mass0 x := rfl
  rw [e1, e2, smul_zero, add_zero]
  have e3 : (massTerm B z : Coeffs dim nS) = -(0, B *ᵥ z.2) := by
    show (0, -(B *ᵥ z.2)) = -(0, B *ᵥ z.2)
    rw [Prod.neg_mk, neg_zero]
  have e4 : eig • (massTerm F.mass0 x : Coeffs dim nS) = -(0, eig • (F.mass0 *ᵥ x.2)) := by
    show eig • ((0, -(F.mass0 *ᵥ x.2)) : Coeffs dim nS) = -(0, eig • (F.mass0 *ᵥ x.2))
    rw [Prod.neg_mk, Prod.smul_mk, smul_neg, smul_zero, neg_zero]
  rw [e3, e4, ← sub_eq_add_neg, ← sub_eq_add_neg, sub_eq_iff_eq_add, sub_eq_iff_eq_add]
  rfl

end

/-- Near a pair of trace and eigenvalue for which the local problem is solvable it is solvable, and the solution is continuously differentiable. -/
theorem eig_smooth (E : Edge dim nS ℝ) (hfix : FixedCoefficient E) (tau : ℝ) (p : (Fin (2 * dim) → Fin (2 * nB) → ℝ) × ℝ) (hs : EigSolvable E nB tau p.2) :
    ∃ S : (Fin (2 * dim) → Fin (2 * nB) → ℝ) × ℝ → Coeffs dim nS × Coeffs dim nS, ContDiffAt ℝ 1 S p ∧
      ∀ᶠ q in 𝓝 p, EigSolvable E nB tau q.2 ∧ EigSolution E nB tau q.2 (moments (form E.stat nB) (upper q.1)) (moments (form E.stat nB) (lower q.1)) 0 (S q).1.1 (S q).1.2 (S q).2.1 (S q).2.2 := by
  have hsol : ∀ (eig : ℝ) l (x z : Coeffs dim nS), EigSolution E nB tau eig (moments (form E.stat nB) (upper l)) (moments (form E.stat nB) (lower l)) 0 x.1 x.2 z.1 z.2 ↔
      mixedLhs (form E.stat nB) (coupling E.stat p.2) tau (x, z) + eig • mixedMass (form E.stat nB) (x, z) = mixedTrace (form E.stat nB) tau l := by
    intro eig l x z
    rw [← mixed_iff, ← hfix eig p.2]
    rfl
  have hz1 : moments (form E.stat nB) (upper (0 : Fin (2 * dim) → Fin (2 * nB) → ℝ)) = 0 := funext fun f => mulVec_zero _
  have hz2 : moments (form E.stat nB) (lower (0 : Fin (2 * dim) → Fin (2 * nB) → ℝ)) = 0 := funext fun f => mulVec_zero _
  have hsolv : ∀ eig : ℝ, EigSolvable E nB tau eig ↔ ∀ X, mixedLhs (form E.stat nB) (coupling E.stat p.2) tau X + eig • mixedMass (form E.stat nB) X = 0 → X = 0 := by
    intro eig
    constructor
    · rintro h ⟨x, z⟩ hX
      have h1 := (hsol eig 0 x z).mpr (by rw [map_zero]; exact hX)
      rw [hz1, hz2] at h1
      obtain ⟨a, b, c, d⟩ := h _ _ _ _ h1
      exact Prod.ext (Prod.ext a b) (Prod.ext c d)
    · intro h q u p' w hq
      have h1 := (hsol eig 0 (q, u) (p', w)).mp (by rw [hz1, hz2]; exact hq)
      rw [map_zero] at h1
      have h2 := h _ h1
      exact ⟨congrArg (fun X => X.1.1) h2, congrArg (fun X => X.1.2) h2, congrArg (fun X => X.2.1) h2, congrArg (fun X => X.2.2) h2⟩
  obtain ⟨S, h1, h2⟩ := smooth_solution (mixedLhs (form E.stat nB) (coupling E.stat p.2) tau) (mixedMass (form E.stat nB)) (mixedTrace (form E.stat nB) tau) p ((hsolv p.2).mp hs)
  exact ⟨S, h1, h2.mono fun q hq => ⟨(hsolv q.2).mpr hq.1, (hsol q.2 q.1 (S q).1 (S q).2).mpr hq.2⟩⟩

end HyperHDG.BilaplacianEigs
