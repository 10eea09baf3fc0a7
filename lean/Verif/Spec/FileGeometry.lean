import Verif.Spec.Lapack
import Verif.Model.FileGeometry

/-!
# Specification: hyperedges of file geometries
-/

namespace HyperHDG

variable {d s : Nat} {K : Type}

/-- What is assumed about LAPACK: for each matrix with at least as many rows as columns `dgeqr2` returns a Householder QR decomposition. -/
def Geqr2Spec [CommRing K] (geqr2 : Geqr2All K) : Prop :=
  ∀ (r c : Nat) (A : SmallMat r c K) (a : Matrix (Fin r) (Fin c) K), Represents A a → c ≤ r →
    ∃ F f tau, geqr2 r c A = .ok (F, tau) ∧ Represents F f ∧ IsHouseholderQR a f tau

/-- The domain assigns to vertex `k` of hyperedge `e` the point with coordinates `p`. -/
def DomainGeo.HasVertex (D : DomainGeo d s K) (e : Nat) (k : Fin (2 ^ (d + 1))) (p : Fin s → K) : Prop :=
  ∃ pts pt, D.points_hyEdge[e]? = some pts ∧ D.points[pts k]? = some pt ∧ Represents pt (Matrix.of fun i _ => p i)

/-- Number of the vertex of a hypercube which is the neighbour of vertex 0 in direction `a`. -/
def neighbour (a : Fin (d + 1)) : Fin (2 ^ (d + 1)) := ⟨2 ^ a.1, Nat.pow_lt_pow_right (by decide) a.2⟩

def vertex0 : Fin (2 ^ (d + 1)) := ⟨0, Nat.two_pow_pos _⟩

/-- The vectors from vertex 0 to its neighbours, as columns. -/
def frame [Sub K] (P : Fin (2 ^ (d + 1)) → Fin s → K) : Matrix (Fin s) (Fin (d + 1)) K :=
  Matrix.of fun i a => P (neighbour a) i - P vertex0 i

/-- The point of the parallelotope spanned at vertex 0 with coordinates `y`. -/
def spanned [CommRing K] (P : Fin (2 ^ (d + 1)) → Fin s → K) (y : Fin (d + 1) → K) : Fin s → K :=
  fun i => P vertex0 i + ∑ a, y a * (P (neighbour a) i - P vertex0 i)

/-- The hyperedge is a parallelotope: each vertex is vertex 0 plus the vectors to the neighbours in the directions given by its binary digits. -/
def IsParallelotope [CommRing K] (P : Fin (2 ^ (d + 1)) → Fin s → K) : Prop :=
  ∀ k i, P k i = P vertex0 i + ∑ a : Fin (d + 1), if k.1.testBit a then P (neighbour a) i - P vertex0 i else 0

/-- The access to the upper triangular factor in `qr_decomp` stays within the matrix.  True if `d + 1 ≤ 2` or `d + 1 = s` or `s ≤ 6`. -/
def QrInBounds (d s : Nat) : Prop := ∀ i j, i < j → j < d + 1 → i * s + j < (d + 1) * (d + 1)

/-- Gram determinant: the square of the volume of the parallelotope spanned by the columns. -/
def gramDet [CommRing K] {r c : Nat} (A : Matrix (Fin r) (Fin c) K) : K := (A.transpose * A).det

end HyperHDG
