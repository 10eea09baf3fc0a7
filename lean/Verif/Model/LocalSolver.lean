import Verif.Model.Lapack

/-!
# What the local solvers (`include/HyperHDG/local_solver/*.hxx`) have in common

The integrator (`TPP::Quadrature::Tensorial` of the library `tensor_product_polynomials`, not part of the repository) is a parameter.  Arguments are natural
numbers as in the code; nothing is known about the values for arguments out of range.
-/

namespace HyperHDG

variable {n k : Nat} {α K : Type}

/-- `a[i]`, read access to a `std::array` of size `n`: undefined out of range. -/
def arrGet (a : Fin n → α) (i : Nat) : Res α := if h : i < n then .ok (a ⟨i, h⟩) else .ub

/-- `a[i] = x` for a `std::array` of size `n`: undefined out of range. -/
def arrPut (a : Fin n → α) (i : Nat) (x : α) : Res (Fin n → α) := if h : i < n then .ok (arrSet a ⟨i, h⟩ x) else .ub

/-- `a[i][j]`, read access to an array of arrays. -/
def arrGet2 (a : Fin n → Fin k → α) (i j : Nat) : Res α := do
  let row ← arrGet a i
  arrGet row j

/-- `a[i][j] = x`. -/
def arrPut2 (a : Fin n → Fin k → α) (i j : Nat) (x : α) : Res (Fin n → Fin k → α) := do
  let row ← arrGet a i
  let row ← arrPut row j x
  arrPut a i row

/-- `a[i][j] += x`. -/
def arrAdd2 [Add α] (i j : Nat) (x : α) (a : Fin n → Fin k → α) : Res (Fin n → Fin k → α) := do
  let y ← arrGet2 a i j
  arrPut2 a i j (y + x)

/-- `a[i][j] -= x`. -/
def arrSub2 [Sub α] (i j : Nat) (x : α) (a : Fin n → Fin k → α) : Res (Fin n → Fin k → α) := do
  let y ← arrGet2 a i j
  arrPut2 a i j (y - x)

namespace SmallMat

variable {r c : Nat}

/-- `mat(row, column) -= v`: `dense_la.hxx` 252-255. -/
def subAt [Sub K] (m : Mode) (row column : Nat) (v : K) (M : SmallMat r c K) : Res (SmallMat r c K) := do
  let x ← M.at' m row column
  M.setAt m row column (x - v)

/-- `vec[index] += v`: `dense_la.hxx` 276-283. -/
def addTo [Add K] (m : Mode) (index : Nat) (v : K) (M : SmallMat r c K) : Res (SmallMat r c K) := do
  let x ← M.get m index
  M.set m index (x + v)

/-- `vec[index] -= v`: `dense_la.hxx` 276-283. -/
def subFrom [Sub K] (m : Mode) (index : Nat) (v : K) (M : SmallMat r c K) : Res (SmallMat r c K) := do
  let x ← M.get m index
  M.set m index (x - v)

end SmallMat

/-- The handler around the local solves: `catch (Wrapper::LAPACKexception& exc) { hy_assert(0 == 1, ...); throw exc; }`, for example
`local_solver/diffusion_uniform_ldgh.hxx` 210-219. -/
def catchLapack (m : Mode) (x : Res α) : Res α :=
  match x with
  | .throw .lapack => do
    hyAssert m (0 = 1)
    .throw .lapack
  | r => r

/-- The functions of the integrator used by `DiffusionUniform`: integrals of products of shape functions `phi_i` of the bulk, their derivatives and
shape functions `psi_j` of the faces. -/
structure Integrator (K : Type) where
  /-- `integrate_vol_phiphi(i, j)` -/
  vol_phiphi : Nat → Nat → K
  /-- `integrate_vol_Dphiphi(i, j, dim)`: the derivative acts on the first function -/
  vol_Dphiphi : Nat → Nat → Nat → K
  /-- `integrate_bdr_phiphi(i, j, bdr)` -/
  bdr_phiphi : Nat → Nat → Nat → K
  /-- `integrate_bdr_phipsi(i, j, bdr)` -/
  bdr_phipsi : Nat → Nat → Nat → K

end HyperHDG
