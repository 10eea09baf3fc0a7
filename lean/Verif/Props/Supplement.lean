import Verif.Props.SparseLA
import Verif.Props.DenseLA
import Verif.Props.BilaplacianUniform
import Verif.Props.EllipticPythonSolvers
import Verif.Props.NewtonProgram
import Verif.Props.HyperGraph
import Verif.Props.FileGeometry
import Verif.Proofs.UnitTiling

/-!
# Further theorems about C06, C10, C26, C40, C62, C91
-/

namespace HyperHDG

/-- **C10** (norm).  `norm_2` returns the Euclidean norm of the vector: non-negative, its square the sum of the squares, and zero only for the zero vector. -/
theorem C10_norm {N : Nat} (m : Mode) (x : Fin N → ℝ) : ∃ v, SparseLA.norm_2 Real.sqrt m (List.ofFn x) = .ok v ∧ 0 ≤ v ∧ v ^ 2 = ∑ i, x i ^ 2 ∧ (v = 0 ↔ x = 0) := by
  have h0 : 0 ≤ ∑ i, x i * x i := Finset.sum_nonneg fun i _ => mul_self_nonneg _
  refine ⟨√(∑ i, x i * x i), ?_, Real.sqrt_nonneg _, ?_, ?_⟩
  · unfold SparseLA.norm_2
    rw [SparseLA.inner_product_ofFn]
    rfl
  · rw [Real.sq_sqrt h0]
    exact Finset.sum_congr rfl fun i _ => (sq (x i)).symm
  · rw [Real.sqrt_eq_zero h0, Finset.sum_eq_zero_iff_of_nonneg fun i _ => mul_self_nonneg _]
    exact ⟨fun h => funext fun i => mul_self_eq_zero.mp (h i (Finset.mem_univ i)), fun h i _ => by rw [h]; simp⟩

/-- **C06** (move assignment).  After `a = std::move(b)` the matrix `a` has the entries `b` had, and `b` those `a` had. -/
theorem C06_move {r c : Nat} {K : Type} (M N : SmallMat r c K) (A B : Matrix (Fin r) (Fin c) K) (hM : Represents M A) (hN : Represents N B) :
    Represents (SmallMat.moveAssign M N).1 B ∧ Represents (SmallMat.moveAssign M N).2 A := ⟨hN, hM⟩

/-! ## C26: what the objects report -/

/-- **C26** (refinement reported).  The topologies and geometries report the refinement to which they were last set, and one if it has never been set. -/
theorem C26_reported (T : Tpcc) {d s : Nat} (h : d + 1 ≤ s) (N : Fin s → Nat) (D : DomainTopo d) {K : Type} (DG : DomainGeo d s K) (t : Topology.Cubic d s) (tf : Topology.File d)
    (g : Geometry.UnitCube d s) (gf : Geometry.File d s K) (n : Nat) :
    (t.set_refinement T n).get_refinement = n ∧ (tf.set_refinement T n).get_refinement = n ∧ (g.set_refinement n).get_refinement = n ∧ (gf.set_refinement n).get_refinement = n ∧
    (Topology.Cubic.mk' T h N).get_refinement = 1 ∧ (Topology.File.mk' T D).get_refinement = 1 ∧ (Geometry.File.mk' DG n).get_refinement = n ∧
    (Geometry.UnitCube.ofTopology h t).get_refinement = t.get_refinement := by
  refine ⟨rfl, rfl, rfl, rfl, rfl, rfl, rfl, rfl⟩

end HyperHDG

/-! ## C40: solvers without errors -/

namespace HyperHDG.EllipticPython

open HyGraph (LocalFun)

/-- **C40** (uniform solvers).  The local solvers `DiffusionUniform` and `BilaplacianUniform` do not compare with a known solution: whatever the vector is, the error returned is zero.  So an error
of zero does not say that the solution is right. -/
theorem C40_uniform {dim n : Nat} (m : Mode) (G : HyGraph dim n) (nodes : Fin G.n_hyEdges → Fin (2 * dim) → Fin G.n_hyNodes) (hwf : G.WF nodes) (ttf res : LocalFun dim n ℝ)
    (old0 new0 : LocDofs dim n ℝ) (X : Fin (G.n_hyNodes * n) → ℝ) :
    (wrapper m G ttf res (fun _ _ => .ok DiffusionUniform.errors) Real.sqrt old0 new0).errors (List.ofFn X) = .ok [0] ∧
    (wrapper m G ttf res (fun _ _ => .ok BilaplacianUniform.errors) Real.sqrt old0 new0).errors (List.ofFn X) = .ok [0] := by
  constructor
  · rw [errors_one m G nodes hwf ttf res _ Real.sqrt old0 new0 X (fun _ => 0) fun _ => rfl]
    simp
  · rw [errors_one m G nodes hwf ttf res _ Real.sqrt old0 new0 X (fun _ => 0) fun _ => rfl]
    simp

end HyperHDG.EllipticPython

/-! ## C62: numbers of degrees of freedom -/

namespace HyperHDG.BilaplacianUniform

open Spec Matrix LDG Mixed DiffusionUniform

/-- **C62** (the method of the code).  For each polynomial degree `p` and dimension `d + 1` the exact integrals of orthonormal polynomials satisfy the assumptions, with the numbers of shape functions
computed by the code if these fit into `unsigned int`; a hypernode has twice as many degrees of freedom as there are shape functions on a face, and the local problem is uniquely solvable. -/
theorem C62_polynomials (p d : Nat) (hfit : 2 * (p + 1) ^ (d + 1) < U32) : n_glob_dofs_per_node (d + 1) p = 2 * n_shape_bdr (d + 1) p ∧ n_shape_bdr (d + 1) p = (p + 1) ^ d ∧
    (∃ P, OrthonormalPolys p P) ∧ ∀ P, OrthonormalPolys p P →
    Lawful (tensorIntegrator (p + 1) (d + 1) (exactBasis P)) (d + 1) (n_shape_fct (d + 1) p) (n_shape_bdr (d + 1) p) ∧
    ∀ tau : ℝ, 0 < tau → Solvable (cubeForm (tensorIntegrator (p + 1) (d + 1) (exactBasis P)) (d + 1) (n_shape_fct (d + 1) p) (n_shape_bdr (d + 1) p)) tau 0 1 := by
  have hfit' : (p + 1) ^ d < U32 := lt_of_le_of_lt (Nat.pow_le_pow_right (by omega) (by omega)) (lt_of_le_of_lt (Nat.le_mul_of_pos_left _ (by omega)) hfit)
  have e2 : n_shape_bdr (d + 1) p = (p + 1) ^ d := (Hypercube.C04_pow d (p + 1)).2 hfit'
  have e3 : n_glob_dofs_per_node (d + 1) p = 2 * n_shape_bdr (d + 1) p := by
    show u32 (2 * n_shape_bdr (d + 1) p) = _
    have : (p + 1) ^ d ≤ (p + 1) ^ (d + 1) := Nat.pow_le_pow_right (by omega) (by omega)
    rw [u32, Nat.mod_eq_of_lt (by rw [e2]; omega)]
  have h := C20_polynomials p d (by omega)
  refine ⟨e3, e2, h.1, fun P hP => ?_⟩
  have hI := (h.2 P hP).1
  rw [show DiffusionUniform.n_glob_dofs_per_node (d + 1) p = n_shape_bdr (d + 1) p from rfl] at hI
  exact ⟨hI, fun tau ht => solvable_of (cube_laws hI) ht.le le_rfl one_pos (.inl ht) (rho := 0)⟩

end HyperHDG.BilaplacianUniform

/-! ## C91: the programs which start with another eigenvector -/

namespace HyperHDG.NewtonProgram

/-- **C91** (start with a vector).  If the program which starts with the vector `v` (not zero) and the number `value` returns, then what is returned is an approximate eigenpair, at least as good as the start
`v` divided by its norm; the vector of the caller is the same afterwards, except that its last entry (the number) has been overwritten by zero. -/
theorem C91_initial (W : Wrapper) {n : Nat} (hL : Lengths W) (hn : W.size_of_system = n) (update : Update) (steps : Nat) (v : Fin n → ℝ) (hv : v ≠ 0) (value val : ℝ)
    (sol initial : List ℝ) (h : program_initial W update steps (joined v value) = .ok (.ok (val, sol), initial)) :
    initial = joined v 0 ∧ ∃ x y : Fin n → ℝ, sol = joined x val ∧ HasFlux W x val y ∧ defect x y < 1 / 1000000000 ∧
      ∀ y0, HasFlux W (fun k => v k / √(∑ k, v k ^ 2)) value y0 → defect x y ≤ defect (fun k => v k / √(∑ k, v k ^ 2)) y0 := by
  unfold program_initial at h
  rw [(C91_start { W with make_initial := fun _ => .ok (joined v 0) } hn v hv 0 value rfl).2.1, Res.ok_bind] at h
  obtain ⟨r, h1, h2⟩ := Res.bind_eq_ok.mp h
  injection h2 with h2
  obtain ⟨rfl, rfl⟩ := Prod.mk.inj h2
  exact ⟨rfl, C91_returned W hL hn update steps _ value val sol h1⟩

/-- **C91** (combined programs).  The same for the programs which continue with the result of a program of C90. -/
theorem C91_combined (W : Wrapper) {n : Nat} (hL : Lengths W) (hn : W.size_of_system = n) (update : Update) (steps : Nat) (v : Fin n → ℝ) (hv : v ≠ 0) (value val : ℝ)
    (sol : List ℝ) (h : combined W update steps value (List.ofFn v) = .ok (.ok (val, sol))) :
    ∃ x y : Fin n → ℝ, sol = joined x val ∧ HasFlux W x val y ∧ defect x y < 1 / 1000000000 ∧
      ∀ y0, HasFlux W (fun k => v k / √(∑ k, v k ^ 2)) value y0 → defect x y ≤ defect (fun k => v k / √(∑ k, v k ^ 2)) y0 := by
  unfold combined at h
  obtain ⟨⟨r, initial⟩, h1, h2⟩ := Res.bind_eq_ok.mp h
  injection h2 with h2
  subst h2
  exact (C91_initial W hL hn update steps v hv value val sol initial h1).2

end HyperHDG.NewtonProgram
