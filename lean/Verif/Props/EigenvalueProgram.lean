import Verif.Proofs.EigenvalueProgram

/-!
# Property C90: the programs which approximate eigenvalues

`Helper.init`, `long_vector`, `short_vector` and the two programs are in `Verif/Model/EigenvalueProgram.lean`, `IsEigenvector`, `ExactEigsh` and `NearestEigsh` in `Verif/Spec/EigenvalueProgram.lean`.
-/

namespace HyperHDG.EigenvalueProgram

open ParabolicProgram (LinearSolver Exact Complete)

variable {K : Type}

section
variable (W : Wrapper K) (sigma : K) (hd : W.dirichlet_indices.Pairwise (· < ·)) (hn : ∀ k ∈ W.dirichlet_indices, k < W.size_of_system)
include hd hn

/-- **C90** (indices).  If the list of the Dirichlet indices is strictly increasing and belongs to the system, then `index_vector` contains the other indices in increasing order and `vector_index`
the places where they are found in it. -/
theorem C90_indices : ∃ h, Helper.init W sigma = .ok h ∧
    h.index_vector = ((List.range W.size_of_system).filter fun k => k ∉ W.dirichlet_indices).map (fun k : Nat => (k : Int)) ∧
    h.vector_index.length = W.size_of_system ∧
    ∀ k < W.size_of_system, (k ∈ W.dirichlet_indices → h.vector_index[k]? = some (-1)) ∧
      (k ∉ W.dirichlet_indices → ∃ i : Nat, h.vector_index[k]? = some (i : Int) ∧ h.index_vector[i]? = some (k : Int)) := by
  refine ⟨_, init_eq W sigma hd hn, rfl, by simp, fun k hk => ⟨fun h => ?_, fun h => ⟨(free W.dirichlet_indices k).length, ?_, ?_⟩⟩⟩
  · simp [hk, h]
  · simp [hk, h]
  · show (List.map _ _)[_]? = _
    rw [List.getElem?_map, getElem?_free hk h]
    rfl

/-- **C90** (extension).  `long_vector` extends a vector by zeros at the Dirichlet indices, and `short_vector` undoes this. -/
theorem C90_long [Zero K] {h : Helper K} (hh : Helper.init W sigma = .ok h) (v : List K) (hv : v.length + W.dirichlet_indices.length = W.size_of_system) :
    ∃ x : Fin W.size_of_system → K, h.long_vector v = .ok (List.ofFn x) ∧ (∀ k : Fin W.size_of_system, k.1 ∈ W.dirichlet_indices → x k = 0) ∧ h.short_vector (List.ofFn x) = .ok v := by
  obtain ⟨h1, _⟩ := isHelper_of_init hd hn hh
  have hv' : v.length = (free W.dirichlet_indices W.size_of_system).length := by
    have := free_length hd hn
    omega
  refine ⟨_, long_eq h1 hv', extend_zero _ _ _, ?_⟩
  rw [short_eq h1, restrict_extend hv']

/-- **C90** (restriction).  `short_vector` keeps the other entries in their order, and `long_vector` undoes this up to the entries at the Dirichlet indices. -/
theorem C90_short [Zero K] {h : Helper K} (hh : Helper.init W sigma = .ok h) (x : Fin W.size_of_system → K) :
    ∃ v, h.short_vector (List.ofFn x) = .ok v ∧ v.length + W.dirichlet_indices.length = W.size_of_system ∧
      v = ((List.finRange W.size_of_system).filter fun k => k.1 ∉ W.dirichlet_indices).map x ∧
      h.long_vector v = .ok (List.ofFn fun k => if k.1 ∈ W.dirichlet_indices then 0 else x k) := by
  obtain ⟨h1, _⟩ := isHelper_of_init hd hn hh
  refine ⟨_, short_eq h1 x, ?_, ?_, ?_⟩
  · rw [restrict_length]
    exact free_length hd hn
  · unfold restrict free
    rw [← List.map_coe_finRange_eq_range, List.filter_map, List.map_map]
    refine List.map_congr_left fun k _ => ?_
    simp
  · rw [long_eq h1 (restrict_length _ _ _), extend_restrict]

end

section
variable [Field K] (W : Wrapper K) (sigma : K) (hd : W.dirichlet_indices.Pairwise (· < ·)) (hn : ∀ k ∈ W.dirichlet_indices, k < W.size_of_system)
  (cg : LinearSolver K) (hcg : Exact cg) (eigsh : Eigsh K) (heig : ExactEigsh eigsh)
  (A B C : (Fin W.size_of_system → K) → Fin W.size_of_system → K) (hA : ∀ x, W.trace_to_flux (List.ofFn x) 0 = .ok (List.ofFn (A x)))

/-- The vectors which vanish at the Dirichlet indices. -/
def Admissible (x : Fin W.size_of_system → K) : Prop := ∀ k : Fin W.size_of_system, k.1 ∈ W.dirichlet_indices → x k = 0

include hd hn hcg heig hA

/-- **C90** (mass approximation).  Let `A` be what `trace_to_flux` computes and `B` what `trace_to_mass_flux` computes.  If the program returns, then a number `val` and a vector `x`, not zero, which
vanishes at the Dirichlet indices and satisfies `A x + val B x = 0` in all other rows. -/
theorem C90_mass_approx_partial (hB : ∀ x, W.trace_to_mass_flux (List.ofFn x) 0 = .ok (List.ofFn (B x))) {val : K} {solution : List K}
    (h : MassApprox.program W sigma cg eigsh = .ok (val, solution)) : ∃ x, solution = List.ofFn x ∧ IsEigenvector W.dirichlet_indices A B val x := by
  unfold MassApprox.program at h
  obtain ⟨hp, h1, h⟩ := Res.bind_eq_ok.mp h
  obtain ⟨k1, k2, k3, k4⟩ := isHelper_of_init hd hn h1
  rw [k4] at h
  have hS := ma_shift k1 k2 ⟨hA⟩ hB
  rw [k3] at hS
  obtain ⟨x, e1, e2, _⟩ := body_spec k1 (ma_stiff k1 k2 ⟨hA⟩) (ma_mass k1 k2 hB) sigma (inverts (ma_stiff k1 k2 ⟨hA⟩) (ma_mass k1 k2 hB) sigma hS cg hcg) eigsh heig h
  exact ⟨x, e1, e2⟩

omit hd hn hcg heig hA in
theorem si_inverts {W : Wrapper K} {hp : Helper K} (k1 : IsHelper hp W.dirichlet_indices W.size_of_system) (k2 : hp.hdg_wrapper = W) {A C : (Fin W.size_of_system → K) → Fin W.size_of_system → K}
    (hA : ∀ x, W.trace_to_flux (List.ofFn x) 0 = .ok (List.ofFn (A x))) (hsig : hp.sigma ≠ 0) (hC : ∀ x, W.trace_to_flux (List.ofFn x) hp.sigma = .ok (List.ofFn (C x)))
    (cg : LinearSolver K) (hcg : Exact cg) :
    Inverts (free W.dirichlet_indices W.size_of_system).length (ShiftedInverse.multiply_stiff hp) (ShiftedInverse.multiply_mass hp) (shifted_inverse cg (ShiftedInverse.shifted_mult hp)) hp.sigma := by
  refine inverts (si_stiff k1 k2 ⟨hA⟩) (si_mass k1 k2 ⟨hA⟩ ⟨hC⟩) hp.sigma ?_ cg hcg
  intro v hv
  rw [si_shift k1 k2 ⟨hC⟩ v hv]
  refine congrArg Res.ok (restrict_ext.mpr fun k _ => ?_)
  show -C _ k = -A _ k - hp.sigma * ((C _ k - A _ k) / hp.sigma)
  rw [mul_div_cancel₀ _ hsig]
  ring

/-- **C90** (shifted inverse).  Let `A` and `C` be what `trace_to_flux` computes for the numbers zero and `sigma`, not zero.  If the program returns, then a number `val` and a vector `x`, not zero, which
vanishes at the Dirichlet indices and satisfies `A x + val (C x - A x) / sigma = 0` in all other rows: the linear interpolation between the operators for zero and `sigma`, taken at `val`, vanishes at `x`. -/
theorem C90_shifted_inverse_partial (hsig : sigma ≠ 0) (hC : ∀ x, W.trace_to_flux (List.ofFn x) sigma = .ok (List.ofFn (C x))) {val : K} {solution : List K}
    (h : ShiftedInverse.program W sigma cg eigsh = .ok (val, solution)) :
    ∃ x, solution = List.ofFn x ∧ IsEigenvector W.dirichlet_indices A (fun x k => (C x k - A x k) / sigma) val x := by
  unfold ShiftedInverse.program at h
  obtain ⟨hp, h1, h⟩ := Res.bind_eq_ok.mp h
  obtain ⟨k1, k2, k3, k4⟩ := isHelper_of_init hd hn h1
  rw [k4] at h
  subst k3
  obtain ⟨x, e1, e2, _⟩ := body_spec k1 (si_stiff k1 k2 ⟨hA⟩) (si_mass k1 k2 ⟨hA⟩ ⟨hC⟩) hp.sigma (si_inverts k1 k2 hA hsig hC cg hcg) eigsh heig h
  exact ⟨x, e1, e2⟩

variable [LinearOrder K] (hnear : NearestEigsh eigsh) (hAs : ∀ x z, Admissible W x → Admissible W z → ∑ k, z k * A x k = ∑ k, x k * A z k)

include hnear hAs

/-- **C90** (mass approximation, which eigenvalue).  If both operators are symmetric on the vectors vanishing at the Dirichlet indices and `B` is positive semidefinite there, then no other eigenvalue is
nearer to `sigma`. -/
theorem C90_mass_approx_nearest (hB : ∀ x, W.trace_to_mass_flux (List.ofFn x) 0 = .ok (List.ofFn (B x))) (hBs : ∀ x z, Admissible W x → Admissible W z → ∑ k, z k * B x k = ∑ k, x k * B z k)
    (hB0 : ∀ x, Admissible W x → 0 ≤ ∑ k, x k * B x k) {val : K} {solution : List K} (h : MassApprox.program W sigma cg eigsh = .ok (val, solution))
    (val' : K) (x' : Fin W.size_of_system → K) (hx' : IsEigenvector W.dirichlet_indices A B val' x') : |val - sigma| ≤ |val' - sigma| := by
  unfold MassApprox.program at h
  obtain ⟨hp, h1, h⟩ := Res.bind_eq_ok.mp h
  obtain ⟨k1, k2, k3, k4⟩ := isHelper_of_init hd hn h1
  rw [k4] at h
  have hS := ma_shift k1 k2 ⟨hA⟩ hB
  rw [k3] at hS
  exact body_nearest k1 (ma_stiff k1 k2 ⟨hA⟩) (ma_mass k1 k2 hB) sigma (inverts (ma_stiff k1 k2 ⟨hA⟩) (ma_mass k1 k2 hB) sigma hS cg hcg) eigsh heig hnear hAs hBs hB0 h val' x' hx'

/-- **C90** (shifted inverse, which eigenvalue).  The same with `(C - A) / sigma` in place of `B`. -/
theorem C90_shifted_inverse_nearest (hsig : sigma ≠ 0) (hC : ∀ x, W.trace_to_flux (List.ofFn x) sigma = .ok (List.ofFn (C x)))
    (hCs : ∀ x z, Admissible W x → Admissible W z → ∑ k, z k * C x k = ∑ k, x k * C z k) (hB0 : ∀ x, Admissible W x → 0 ≤ ∑ k, x k * ((C x k - A x k) / sigma))
    {val : K} {solution : List K} (h : ShiftedInverse.program W sigma cg eigsh = .ok (val, solution))
    (val' : K) (x' : Fin W.size_of_system → K) (hx' : IsEigenvector W.dirichlet_indices A (fun x k => (C x k - A x k) / sigma) val' x') : |val - sigma| ≤ |val' - sigma| := by
  unfold ShiftedInverse.program at h
  obtain ⟨hp, h1, h⟩ := Res.bind_eq_ok.mp h
  obtain ⟨k1, k2, k3, k4⟩ := isHelper_of_init hd hn h1
  rw [k4] at h
  subst k3
  refine body_nearest k1 (si_stiff k1 k2 ⟨hA⟩) (si_mass k1 k2 ⟨hA⟩ ⟨hC⟩) hp.sigma (si_inverts k1 k2 hA hsig hC cg hcg) eigsh heig hnear hAs (fun x z hx hz => ?_) hB0 h val' x' hx'
  have e : ∀ x z : Fin W.size_of_system → K, ∑ k, z k * ((C x k - A x k) / hp.sigma) = (∑ k, z k * C x k - ∑ k, z k * A x k) / hp.sigma := by
    intro x z
    rw [← Finset.sum_sub_distrib, div_eq_mul_inv, Finset.sum_mul]
    exact Finset.sum_congr rfl fun k _ => by ring
  rw [e, e, hAs x z hx hz, hCs x z hx hz]

omit hnear

variable (hc : Complete cg) (hcomp : CompleteEigsh eigsh)
include hc hcomp

/-- **C90** (mass approximation, the program returns).  Under these conditions, and if the shifted problem has a solution for every right-hand side and there is an eigenvalue next to `sigma`, the program
returns. -/
theorem C90_mass_approx_returns (hB : ∀ x, W.trace_to_mass_flux (List.ofFn x) 0 = .ok (List.ofFn (B x))) (hBs : ∀ x z, Admissible W x → Admissible W z → ∑ k, z k * B x k = ∑ k, x k * B z k)
    (hB0 : ∀ x, Admissible W x → 0 ≤ ∑ k, x k * B x k) (hsol : ∀ r : Fin W.size_of_system → K, ∃ x, Admissible W x ∧ ∀ k : Fin W.size_of_system, k.1 ∉ W.dirichlet_indices → -A x k - sigma * B x k = r k)
    {val : K} {x : Fin W.size_of_system → K} (hx : IsEigenvector W.dirichlet_indices A B val x) (hnext : ∀ val' x', IsEigenvector W.dirichlet_indices A B val' x' → |val - sigma| ≤ |val' - sigma|) :
    ∃ r, MassApprox.program W sigma cg eigsh = .ok r := by
  unfold MassApprox.program
  obtain ⟨hp, h1, _⟩ := C90_indices W sigma hd hn
  obtain ⟨k1, k2, k3, k4⟩ := isHelper_of_init hd hn h1
  rw [h1, Res.ok_bind, k4]
  have hS := ma_shift k1 k2 ⟨hA⟩ hB
  rw [k3] at hS
  exact body_ok k1 (ma_stiff k1 k2 ⟨hA⟩) (ma_mass k1 k2 hB) sigma (inverts (ma_stiff k1 k2 ⟨hA⟩) (ma_mass k1 k2 hB) sigma hS cg hcg) (fun v hv => shifted_inverse_ok hS cg hc hsol hv) eigsh heig hcomp hAs hBs
    hB0 hx hnext

/-- **C90** (shifted inverse, the program returns).  The same with `(C - A) / sigma` in place of `B`. -/
theorem C90_shifted_inverse_returns (hsig : sigma ≠ 0) (hC : ∀ x, W.trace_to_flux (List.ofFn x) sigma = .ok (List.ofFn (C x)))
    (hCs : ∀ x z, Admissible W x → Admissible W z → ∑ k, z k * C x k = ∑ k, x k * C z k) (hB0 : ∀ x, Admissible W x → 0 ≤ ∑ k, x k * ((C x k - A x k) / sigma))
    (hsol : ∀ r : Fin W.size_of_system → K, ∃ x, Admissible W x ∧ ∀ k : Fin W.size_of_system, k.1 ∉ W.dirichlet_indices → -C x k = r k)
    {val : K} {x : Fin W.size_of_system → K} (hx : IsEigenvector W.dirichlet_indices A (fun x k => (C x k - A x k) / sigma) val x)
    (hnext : ∀ val' x', IsEigenvector W.dirichlet_indices A (fun x k => (C x k - A x k) / sigma) val' x' → |val - sigma| ≤ |val' - sigma|) :
    ∃ r, ShiftedInverse.program W sigma cg eigsh = .ok r := by
  unfold ShiftedInverse.program
  obtain ⟨hp, h1, _⟩ := C90_indices W sigma hd hn
  obtain ⟨k1, k2, k3, k4⟩ := isHelper_of_init hd hn h1
  rw [h1, Res.ok_bind, k4]
  subst k3
  refine body_ok k1 (si_stiff k1 k2 ⟨hA⟩) (si_mass k1 k2 ⟨hA⟩ ⟨hC⟩) hp.sigma (si_inverts k1 k2 hA hsig hC cg hcg) (fun v hv => shifted_inverse_ok (si_shift k1 k2 ⟨hC⟩) cg hc hsol hv) eigsh heig hcomp hAs
    (fun x z hx hz => ?_) hB0 hx hnext
  have e : ∀ x z : Fin W.size_of_system → K, ∑ k, z k * ((C x k - A x k) / hp.sigma) = (∑ k, z k * C x k - ∑ k, z k * A x k) / hp.sigma := by
    intro x z
    rw [← Finset.sum_sub_distrib, div_eq_mul_inv, Finset.sum_mul]
    exact Finset.sum_congr rfl fun k _ => by ring
  rw [e, e, hAs x z hx hz, hCs x z hx hz]

end

end HyperHDG.EigenvalueProgram
