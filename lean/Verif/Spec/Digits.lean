/-! Specification: positional number systems, least significant digit first. -/

namespace HyperHDG.Spec

/-- The number with base-`b` digits `ds`, least significant digit first. -/
def fromDigits (b : Nat) : List Nat → Nat
  | [] => 0
  | d :: ds => d + b * fromDigits b ds

end HyperHDG.Spec
