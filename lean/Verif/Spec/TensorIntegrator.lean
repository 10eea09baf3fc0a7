import Verif.Spec.LocalSolver
import Mathlib.Algebra.BigOperators.Fin

/-!
# The tensor product integrator

What `TPP::Quadrature::Tensorial` computes for `TPP::ShapeType::Tensorial<TPP::ShapeType::Legendre<p>, dim>` if the one-dimensional quadrature is
exact: the shape function number `i` is the product of the one-dimensional shape functions whose numbers are the digits of `i` in base `n = p + 1`.
-/

namespace HyperHDG.Spec

variable {K : Type}

/-- One-dimensional orthonormal shape functions on the interval `[0, 1]`: values at the end points, integrals `∫ P_i' P_j`. -/
structure Basis1D (n : Nat) (K : Type) where
  at0 : Nat → K
  at1 : Nat → K
  D : Nat → Nat → K

/-- Integration by parts; a function without derivative and value zero at the left end vanishes. -/
structure Basis1D.Lawful [CommRing K] {n : Nat} (B : Basis1D n K) : Prop where
  by_parts : ∀ i j : Fin n, B.D i j + B.D j i = B.at1 i * B.at1 j - B.at0 i * B.at0 j
  unisolvent : ∀ u : Fin n → K, (∀ j : Fin n, ∑ i : Fin n, B.D i j * u i = 0) → ∑ i : Fin n, B.at0 i * u i = 0 → u = 0

/-- Digit `k` of `i`. -/
def digitOf (n k i : Nat) : Nat := i / n ^ k % n

/-- The digits of `i` and `j` agree, except for those of axis `d`. -/
def SameExcept (n dim d i j : Nat) : Prop := ∀ k, k < dim → k ≠ d → digitOf n k i = digitOf n k j

/-- The digits of the face function `j` are those of the bulk function `i` without that of axis `d`. -/
def SameFace (n dim d i j : Nat) : Prop := ∀ k, k + 1 < dim → digitOf n k j = digitOf n (if k < d then k else k + 1) i

open Classical in
/-- The integrator in `dim` dimensions. -/
noncomputable def tensorIntegrator [CommRing K] (n dim : Nat) (B : Basis1D n K) : Integrator K where
  vol_phiphi i j := if ∀ k, k < dim → digitOf n k i = digitOf n k j then 1 else 0
  vol_Dphiphi i j d := if SameExcept n dim d i j then B.D (digitOf n d i) (digitOf n d j) else 0
  bdr_phiphi i j f := if SameExcept n dim (f / 2) i j then
      if f % 2 = 0 then B.at0 (digitOf n (f / 2) i) * B.at0 (digitOf n (f / 2) j) else B.at1 (digitOf n (f / 2) i) * B.at1 (digitOf n (f / 2) j)
    else 0
  bdr_phipsi i j f := if SameFace n dim (f / 2) i j then
      if f % 2 = 0 then B.at0 (digitOf n (f / 2) i) else B.at1 (digitOf n (f / 2) i)
    else 0

end HyperHDG.Spec
