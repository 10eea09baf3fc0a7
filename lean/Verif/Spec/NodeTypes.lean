import Verif.Spec.Digits
import Verif.Spec.Refinement

/-! Vocabulary for the theorems on node types. -/

namespace HyperHDG

open Classical in
/-- The parts of the boundary of the grid `[0, N 0] x [0, N 1] x ...` on which a set of points lies, coded as a number with base-3 digits: digit `i` is 1
if all points have coordinate `0` in direction `i`, 2 if all points have coordinate `N i`, and 0 otherwise. -/
noncomputable def boundaryCode {s : Nat} (N : Fin s → Nat) (F : Set (Fin s → ℚ)) : Nat :=
  Spec.fromDigits 3 (List.ofFn fun i =>
    if ∀ x ∈ F, x i = 0 then 1 else if ∀ x ∈ F, x i = N i then 2 else 0)

end HyperHDG
