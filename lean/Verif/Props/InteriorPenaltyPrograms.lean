import Verif.Model.InteriorPenaltyPrograms
import Verif.Proofs.InverseTrace
import Verif.Props.EllipticPythonSolvers
import Verif.Props.NodeTypes
import Verif.Props.UnitCube
import Verif.Props.Connected

/-!
# Property C96: the penalty of the interior penalty programs is large enough

The programs choose the penalty `5 (d + 1) p³ 2^k` for hyperedges of dimension `d`, polynomials of degree `p` and `2^k` cells in each direction.
-/

namespace HyperHDG.InteriorPenaltyPrograms

open HyperHDG.Topology Spec.IP

variable {T : Tpcc} {d s n : Nat}

/-! ## The grid -/

/-- **C96** (cells).  All hyperedges of the unit cube with `N` elements in each direction are cubes with side `1 / N`: their points are `translation + x / N`. -/
theorem C96_cells (hT : T.Lawful) (h : d + 1 ≤ s) (N : Nat) (hN : 0 < N) (m : Mode) (index : Nat) (hidx : index < T.size (⟨.both, fun _ => N, h⟩ : Complex s (d + 1)))
    (e : Geometry.UnitCube.HyEdge d s ℝ) (he : Geometry.UnitCube.HyEdge.make m T (Geometry.UnitCube.mk' h fun _ => N) index = .ok e) (j : Fin (d + 1)) : e.char_length j = 1 / N := by
  have h1 : index < T.size (⟨.both, fun _ => N, h⟩ : Complex s (d + 1)) * 1 ^ (d + 1) := by simpa using hidx
  have h2 := make_spec (K := ℝ) hT m h (fun _ => hN) Nat.one_pos (by rw [one_pow]; decide) h1
  have h3 : (Geometry.UnitCube.mk' h fun _ => N).set_refinement 1 = Geometry.UnitCube.mk' h fun _ => N := rfl
  rw [h3, he] at h2
  injection h2 with h2
  subst h2
  show (1 : ℝ) / (N : ℝ) / ((1 : Nat) : ℝ) = 1 / N
  simp

theorem exists_canon (hT : T.Lawful) : ∀ k, k ≤ s → ∃ b : Fin k → Fin s, StrictMono (fun j => (T.dirs s).idxOf (b j))
  | 0, _ => ⟨fun j => j.elim0, fun j => j.elim0⟩
  | k + 1, hk => by
    obtain ⟨b, hb⟩ := exists_canon hT k (by omega)
    obtain ⟨i, hi⟩ : ∃ i, ∀ j, b j ≠ i := by
      by_contra hcon
      push Not at hcon
      have := Fintype.card_le_of_surjective b (fun i => hcon i)
      simp at this
      omega
    obtain ⟨a, _, ha, _, _⟩ := exists_insert hT hb i hi
    exact ⟨a, ha⟩

theorem exists_corner (hT : T.Lawful) {k : Nat} (h : k ≤ s) (N : Fin s → Nat) (hN : ∀ i, 0 < N i) : ∃ e : Elem s k, Belongs T ⟨.both, N, h⟩ e ∧ ∀ i, e.coord i = 0 := by
  obtain ⟨b, hb⟩ := exists_canon (s := s) hT k h
  exact ⟨⟨b, fun _ => 0⟩, ⟨hb, fun j => hN _, fun i _ => Nat.zero_le _⟩, fun _ => rfl⟩

/-- **C96** (boundary).  Every cubic grid, on every level of refinement, has a face of non-zero type. -/
theorem C96_boundary (hT : T.Lawful) (h : d + 1 ≤ s) (N : Fin s → Nat) (hN : ∀ i, 0 < N i) (hn : 0 < n) (hs : 3 ^ s ≤ U32) (hE : T.size (⟨.both, N, h⟩ : Complex s (d + 1)) * n ^ (d + 1) < U32)
    (m : Mode) : ∃ index, index < T.size (⟨.both, N, h⟩ : Complex s (d + 1)) * n ^ (d + 1) ∧
      ∃ types, ((NodeDescriptor.Cubic.mk' T h N).set_refinement T n).get_hyFace_types m T index = .ok types ∧ ∃ f, types f ≠ 0 := by
  obtain ⟨e, he, he0⟩ := exists_corner hT h N hN
  obtain ⟨z, hz, hz0⟩ := exists_corner hT (Nat.le_refl (d + 1)) (fun _ => n) (fun _ => hn)
  have h1 := hT.index_lt _ _ he
  have h2 := hT.index_lt _ _ hz
  have h3 : T.size (⟨.both, fun _ => n, Nat.le_refl _⟩ : Complex (d + 1) (d + 1)) = n ^ (d + 1) := size_refElem hT d n
  rw [h3] at h2
  have hidx : T.index (coarseElems h N) e * n ^ (d + 1) + T.index (⟨.both, fun _ => n, Nat.le_refl _⟩ : Complex (d + 1) (d + 1)) z < T.size (coarseElems h N) * n ^ (d + 1) := by
    have : (T.index (coarseElems h N) e + 1) * n ^ (d + 1) ≤ T.size (coarseElems h N) * n ^ (d + 1) := Nat.mul_le_mul_right _ h1
    rw [Nat.add_mul, Nat.one_mul] at this
    omega
  refine ⟨_, hidx, _, cubic_types m hT h N hn hs hE hidx, ⟨0, by omega⟩, ?_⟩
  have hdiv : (T.index (coarseElems h N) e * n ^ (d + 1) + T.index (⟨.both, fun _ => n, Nat.le_refl _⟩ : Complex (d + 1) (d + 1)) z) / n ^ (d + 1) = T.index (coarseElems h N) e := by
    rw [Nat.mul_comm, Nat.mul_add_div (by positivity), Nat.div_eq_of_lt h2, Nat.add_zero]
  have hmod : (T.index (coarseElems h N) e * n ^ (d + 1) + T.index (⟨.both, fun _ => n, Nat.le_refl _⟩ : Complex (d + 1) (d + 1)) z) % n ^ (d + 1) =
      T.index (⟨.both, fun _ => n, Nat.le_refl _⟩ : Complex (d + 1) (d + 1)) z := by
    rw [Nat.mul_add_mod_self_right, Nat.mod_eq_of_lt h2]
  have hpos : refPos T d n (T.index (coarseElems h N) e * n ^ (d + 1) + T.index (⟨.both, fun _ => n, Nat.le_refl _⟩ : Complex (d + 1) (d + 1)) z) (Elem.facetDir ⟨0, by omega⟩) = 0 := by
    unfold refPos
    rw [hmod, hT.elem_index _ _ hz]
    exact hz0 _
  dsimp only
  rw [if_pos (Or.inl (by rw [hpos])), hdiv, hT.elem_index _ _ he]
  intro hzero
  have h4 := (fromDigits_digit s _ (markDigit_lt N (e.facet ⟨0, by omega⟩))).2 (e.along (Elem.facetDir ⟨0, by omega⟩))
  rw [hzero, Nat.zero_div, Nat.zero_mod] at h4
  unfold markDigit at h4
  rw [if_pos, if_pos] at h4
  · exact absurd h4 (by omega)
  · simp [Elem.facet, he0]
  · intro j hj
    have := along_inj he.canon hj
    exact absurd this (Fin.succAbove_ne _ _)

/-! ## The penalty -/

/-- **C96** (trace inequality).  On a cube of any dimension with side `h`, for a constant diffusion coefficient `kappa` and tensor products of orthonormal polynomials of degree at most `p` the
assumptions of C80 hold with the constant `2 kappa (p + 1)² / h`. -/
theorem C96_cube {p d : Nat} (P : Fin (p + 1) → Polynomial ℝ) (hP : Spec.OrthonormalPolys p P) {kappa h : ℝ} (hk : 0 < kappa) (hh : 0 < h) :
    Laws ((cubeForm (Spec.tensorIntegrator (p + 1) (d + 1) (Spec.exactBasis P)) (d + 1) ((p + 1) ^ (d + 1)) ((p + 1) ^ d) kappa).scaled h) (2 * kappa * (p + 1) ^ 2 / h) ∧
    Rigid ((cubeForm (Spec.tensorIntegrator (p + 1) (d + 1) (Spec.exactBasis P)) (d + 1) ((p + 1) ^ (d + 1)) ((p + 1) ^ d) kappa).scaled h) :=
  ⟨scaled_laws (cube_laws_sharp hP hk) hh, scaled_rigid (cube_rigid _ (Spec.tensor_rigid _ (Spec.exact_lawful hP)) hk) hh⟩

/-- **C96** (penalty).  The penalty chosen by the programs exceeds a quarter of this constant for each dimension, each positive polynomial degree, each number of iterations and each diffusion coefficient
below 5. -/
theorem C96_penalty (d : Nat) {p : Nat} (hp : 0 < p) (iteration : Nat) {kappa : ℝ} (hk' : kappa < 5) :
    2 * kappa * (p + 1) ^ 2 / (1 / 2 ^ iteration) < 4 * (lsol_constr (d + 1) p iteration : ℝ) := by
  have hp1 : (1 : ℝ) ≤ p := by exact_mod_cast hp
  have h2 : (0 : ℝ) < 2 ^ iteration := by positivity
  have h3 : ((p : ℝ) + 1) ^ 2 ≤ 4 * p ^ 3 := by nlinarith [mul_nonneg (sub_nonneg.mpr hp1) (sq_nonneg (p : ℝ))]
  have h4 : (0 : ℝ) < (p : ℝ) ^ 3 := by positivity
  have h5 : 2 * kappa * (p + 1) ^ 2 < 4 * (5 * ((d : ℝ) + 1 + 1) * p ^ 3) := by
    have hd : (0 : ℝ) ≤ d := Nat.cast_nonneg d
    have h6 : 2 * kappa * ((p : ℝ) + 1) ^ 2 < 2 * 5 * ((p : ℝ) + 1) ^ 2 := by
      have : (0 : ℝ) < ((p : ℝ) + 1) ^ 2 := by positivity
      nlinarith
    nlinarith [mul_nonneg hd h4.le]
  unfold lsol_constr
  push_cast
  rw [div_div_eq_mul_div, div_one]
  calc _ < 4 * (5 * ((d : ℝ) + 1 + 1) * p ^ 3) * 2 ^ iteration := mul_lt_mul_of_pos_right h5 h2
    _ = _ := by ring

/-- The diffusion coefficients of both programs are positive and below 5. -/
theorem C96_coefficients : (0 < sin_diffusion_coeff ∧ sin_diffusion_coeff < 5) ∧ 0 < quad_diffusion_coeff ∧ quad_diffusion_coeff < 5 := by
  have := Real.two_le_pi
  refine ⟨⟨div_pos two_pos Real.pi_pos, ?_⟩, one_pos, by norm_num [quad_diffusion_coeff]⟩
  rw [sin_diffusion_coeff, div_lt_iff₀ Real.pi_pos]
  linarith

end HyperHDG.InteriorPenaltyPrograms

namespace HyperHDG.DiffusionIP

open EllipticPython HyGraph HyperHDG.Topology InteriorPenaltyPrograms
open Spec hiding Form IsSolution faceFlux Solvable moments IsTrace Rigid traceOf
open Spec.IP

variable {T : Tpcc} {d s : Nat}

/-- **C96** (programs).  Let the hypergraph be that of a cubic grid with `2^iteration` cells in each direction of a space of dimension at most 3, let the types of faces be those of the cubic node
descriptor and let all non-zero types be of Dirichlet type.  Let the integrals of a constant diffusion coefficient below 5 be those over cubes with side `1 / 2^iteration` for orthonormal polynomials of
positive degree.  Then with the penalty chosen by the programs there is exactly one discrete solution, with value zero at the nodes on the boundary; the programs return it up to the tolerance of the
linear solvers (`Correct`), and the error they print is that of the local solutions. -/
theorem C96_program (m : Mode) (hT : T.Lawful) (h : d + 1 ≤ s) (hs : s ≤ 3) (iteration : Nat)
    (hEd : T.size (⟨.both, n_elements s iteration, h⟩ : Complex s (d + 1)) < U32)
    (hNo : T.size (⟨.both, n_elements s iteration, Nat.le_of_succ_le h⟩ : Complex s d) < U32)
    {p : Nat} (hp : 0 < p) (P : Fin (p + 1) → Polynomial ℝ) (hP : OrthonormalPolys p P) {kappa : ℝ} (hk : 0 < kappa) (hk' : kappa < 5)
    (G : HyGraph (d + 1) ((p + 1) ^ d)) (hfit : G.n_hyNodes * (p + 1) ^ d < U32)
    (hG : DescribedBy G (Cubic.mk' T h (n_elements s iteration)).n_hyEdges (Cubic.mk' T h (n_elements s iteration)).n_hyNodes ((Cubic.mk' T h (n_elements s iteration)).get_hyNode_indices m T))
    (E : Nat → Edge (d + 1) ((p + 1) ^ (d + 1)) ℝ)
    (hform : ∀ e, form (E e) ((p + 1) ^ d) 0 =
      (cubeForm (tensorIntegrator (p + 1) (d + 1) (exactBasis P)) (d + 1) ((p + 1) ^ (d + 1)) ((p + 1) ^ d) kappa).scaled (1 / 2 ^ iteration))
    (htypes : ∀ e : Fin G.n_hyEdges, (NodeDescriptor.Cubic.ofTopology (Cubic.mk' T h (n_elements s iteration))).get_hyFace_types m T e = .ok fun f => (E e).node_descriptor f)
    (hdir : ∀ e, (E e).dirichlet_nodes = dirichlet_nodes)
    (gesv : Gesv ((p + 1) ^ (d + 1)) 1 ℝ) (hg : GesvSpec gesv) (sqrt : ℝ → ℝ) (old0 new0 : LocDofs (d + 1) ((p + 1) ^ d) ℝ) (W : Wrapper ℝ)
    (hW : W = wrapper m G (localOperator m gesv (lsol_constr (d + 1) p iteration) E 0) (localResidual m gesv (lsol_constr (d + 1) p iteration) E 0)
      (fun e u => errors m gesv (lsol_constr (d + 1) p iteration) u (E e) 0) sqrt old0 new0) :
    (∃ (e : Fin G.n_hyEdges) (f : Fin (2 * (d + 1))), (E e).node_descriptor f ≠ 0) ∧
    Correct W (G.n_hyNodes * (p + 1) ^ d) (VanishesAt fun v => ∃ (e : Fin G.n_hyEdges) (f : Fin (2 * (d + 1))), G.hyNodes e f = v ∧ (E e).node_descriptor f ≠ 0)
      (G.n_hyEdges * (2 * (d + 1) * (p + 1) ^ d) ^ 2 < U32) ∧
    ∃ nodes, G.WF nodes ∧ ∀ X : Fin (G.n_hyNodes * (p + 1) ^ d) → ℝ, ∃ u : Fin G.n_hyEdges → Fin ((p + 1) ^ (d + 1)) → ℝ,
      (∀ e : Fin G.n_hyEdges, IsSolution (form (E e) ((p + 1) ^ d) 0) (lsol_constr (d + 1) p iteration)
        (moments (form (E e) ((p + 1) ^ d) 0) (faceValues nodes X e) + dirichletMoments (E e) 0) (source (E e) 0) (u e)) ∧
      W.errors (List.ofFn X) = .ok [sqrt (∑ e : Fin G.n_hyEdges, (E e).vol_diffsquare 0 (u e))] := by
  have hN : ∀ i, 0 < n_elements s iteration i := fun _ => by unfold n_elements; positivity
  have hEd' : T.size (⟨.both, n_elements s iteration, h⟩ : Complex s (d + 1)) * 1 ^ (d + 1) < U32 := by rwa [one_pow, Nat.mul_one]
  have hNo' : T.size (⟨.both, n_elements s iteration, Nat.le_of_succ_le h⟩ : Complex s d) * 1 ^ d + T.size (⟨.both, n_elements s iteration, h⟩ : Complex s (d + 1)) * nInterior d 1 < U32 := by
    simpa [nInterior] using hNo
  have h3 : 3 ^ s ≤ 27 := (Nat.pow_le_pow_right (by omega) hs).trans (by norm_num)
  have h3' : 3 ^ s ≤ U32 := h3.trans (by decide)
  have htop : (Cubic.mk' T h (n_elements s iteration)).set_refinement T 1 = Cubic.mk' T h (n_elements s iteration) := rfl
  have hnd : (NodeDescriptor.Cubic.mk' T h (n_elements s iteration)).set_refinement T 1 = NodeDescriptor.Cubic.ofTopology (Cubic.mk' T h (n_elements s iteration)) :=
    (C28_cubic_of_topology T h _ 1).symm.trans (by rw [htop])
  have hcount := C24_cubic_counts hT h (n_elements s iteration) Nat.one_pos hEd' hNo'
  rw [htop] at hcount
  rw [← htop] at hG
  rw [← hnd] at htypes
  have hedges : G.n_hyEdges = T.size (⟨.both, n_elements s iteration, h⟩ : Complex s (d + 1)) * 1 ^ (d + 1) := hG.edges.trans hcount.1
  obtain ⟨nodes, hwf, hanch⟩ := C55_anchored G hfit hG (fun e he => C24_cubic_valid hT h _ Nat.one_pos hEd' hNo' m e he)
    (fun v w hv hw => C55_cubic_connected hT h _ Nat.one_pos hEd' hNo' m hN v w hv hw)
  -- the types are at most 26
  have hle : ∀ (e : Fin G.n_hyEdges) (f : Fin (2 * (d + 1))), (E e).node_descriptor f < 27 := by
    intro e f
    have h1 := cubic_types m hT h (n_elements s iteration) Nat.one_pos h3' hEd' (index := e) (by rw [← hedges]; exact e.2)
    rw [htypes e] at h1
    injection h1 with h1
    have h2 := congrFun h1 f
    rw [h2]
    split
    · exact (fromDigits_digit s _ (markDigit_lt _ _)).1.trans_le h3
    · omega
  have hmem : ∀ (e : Fin G.n_hyEdges) (f : Fin (2 * (d + 1))), (E e).node_descriptor f ∈ (E e).dirichlet_nodes ↔ (E e).node_descriptor f ≠ 0 := by
    intro e f
    rw [hdir, dirichlet_nodes]
    have := hle e f
    simp only [List.mem_cons, List.not_mem_nil, or_false]
    omega
  have hex : ∃ (e : Fin G.n_hyEdges) (f : Fin (2 * (d + 1))), (E e).node_descriptor f ≠ 0 := by
    obtain ⟨index, hidx, types, h1, f, h2⟩ := C96_boundary hT h (n_elements s iteration) hN Nat.one_pos h3' hEd' m
    have hidx' : index < G.n_hyEdges := by rw [hedges]; exact hidx
    refine ⟨⟨index, hidx'⟩, f, ?_⟩
    have h4 := htypes ⟨index, hidx'⟩
    rw [h1] at h4
    injection h4 with h4
    rw [h4] at h2
    exact h2
  have hD : ∀ (e : Fin G.n_hyEdges) (f : Fin (2 * (d + 1))), (E e).node_descriptor f ∈ (E e).dirichlet_nodes ↔
      ∃ (e' : Fin G.n_hyEdges) (f' : Fin (2 * (d + 1))), G.hyNodes e' f' = nodes e f ∧ (E e').node_descriptor f' ≠ 0 := by
    intro e f
    rw [hmem]
    refine ⟨fun h1 => ⟨e, f, hwf.hyNodes_eq e f, h1⟩, ?_⟩
    rintro ⟨e', f', h1, h2⟩
    have h4 := C28_cubic_shared hT h (n_elements s iteration) Nat.one_pos h3' hEd' hNo' m e e' (by rw [← hedges]; exact e.2) (by rw [← hedges]; exact e'.2) _ _ _ _
      (hG.indices e (by rw [← hG.edges]; exact e.2)) (hG.indices e' (by rw [← hG.edges]; exact e'.2)) (htypes e) (htypes e') f f' (by rw [h1, hwf.hyNodes_eq e f])
    rw [h4]
    exact h2
  have hpos : (0 : ℝ) < lsol_constr (d + 1) p iteration := by
    unfold lsol_constr
    exact_mod_cast Nat.mul_pos (Nat.mul_pos (by omega) (Nat.pow_pos hp)) (Nat.pow_pos (by omega))
  have hh : (0 : ℝ) < 1 / 2 ^ iteration := by positivity
  have hcube := C96_cube (d := d) P hP hk hh
  have hmain := C95_interior_penalty m gesv hg (lsol_constr (d + 1) p iteration : ℝ) hpos E (fun _ => 2 * kappa * (p + 1) ^ 2 / (1 / 2 ^ iteration))
    (fun e => by rw [hform]; exact hcube.1) (fun _ => C96_penalty d hp iteration hk') (fun e => by rw [hform]; exact hcube.2) G nodes hwf
    (fun v => ∃ (e' : Fin G.n_hyEdges) (f' : Fin (2 * (d + 1))), G.hyNodes e' f' = v ∧ (E e').node_descriptor f' ≠ 0) hD
    (hanch _ (by
      obtain ⟨e, f, h1⟩ := hex
      exact ⟨nodes e f, e, f, hwf.hyNodes_eq e f, h1⟩)) sqrt old0 new0 W hW
  exact ⟨hex, hmain.1, nodes, hwf, hmain.2⟩

/-- **C96** (degree 0).  For polynomials of degree 0 the formula of the programs gives the penalty 0; then the local problems are not solvable and no flux is returned. -/
theorem C96_degree_zero (m : Mode) (gesv : Gesv ((0 + 1) ^ (d + 1)) 1 ℝ) (hg : GesvSpec gesv) (P : Fin (0 + 1) → Polynomial ℝ) (hP : OrthonormalPolys 0 P) (kappa h : ℝ) (iteration : Nat)
    (E : Edge (d + 1) ((0 + 1) ^ (d + 1)) ℝ)
    (hform : form E ((0 + 1) ^ d) 0 = (cubeForm (tensorIntegrator (0 + 1) (d + 1) (exactBasis P)) (d + 1) ((0 + 1) ^ (d + 1)) ((0 + 1) ^ d) kappa).scaled h)
    (lambda out : LocDofs (d + 1) ((0 + 1) ^ d) ℝ) : trace_to_flux m gesv (lsol_constr (d + 1) 0 iteration) lambda out E 0 = solveFailure m := by
  refine (C79_flux m gesv hg _ E 0 lambda out).2 fun hs => ?_
  have hD : ∀ i j k, (tensorIntegrator (0 + 1) (d + 1) (exactBasis P)).vol_Dphiphi i j k = 0 := by
    intro i j k
    simp only [tensorIntegrator, exactBasis]
    split
    · split
      · rename_i h1
        have h2 := Polynomial.derivative_eq_zero.mpr (Nat.le_zero.mp (hP.degree ⟨_, h1.1⟩))
        rw [h2]
        simp
      · rfl
    · rfl
  have hone := hs (fun _ => 1) (by
    rw [hform]
    unfold IsSolution
    have h1 : ((cubeForm (tensorIntegrator (0 + 1) (d + 1) (exactBasis P)) (d + 1) ((0 + 1) ^ (d + 1)) ((0 + 1) ^ d) kappa).scaled h).stiff = 0 := by
      ext i j
      simp [Form.scaled, IP.cubeForm, hD]
    have h2 : ∀ f, ((cubeForm (tensorIntegrator (0 + 1) (d + 1) (exactBasis P)) (d + 1) ((0 + 1) ^ (d + 1)) ((0 + 1) ^ d) kappa).scaled h).conorm f = 0 := by
      intro f
      ext i j
      simp [Form.scaled, IP.cubeForm, hD]
    have h3 : ((lsol_constr (d + 1) 0 iteration : Nat) : ℝ) = 0 := by simp [lsol_constr]
    rw [h1, h3]
    simp only [h2, Matrix.zero_mulVec, Finset.sum_const_zero, zero_smul, sub_zero, add_zero])
  exact one_ne_zero (congrFun hone ⟨0, by positivity⟩)

/-! ## Concrete cases -/

/-- A hyperedge with given integrals and types of faces. -/
noncomputable def edgeOf {dim nS nB : Nat} (F : Form dim nS nB ℝ) (types : Nat → Nat) : Edge dim nS ℝ where
  vol_nablaphinablaphifunc _ i j := if h : i < nS ∧ j < nS then F.stiff ⟨i, h.1⟩ ⟨j, h.2⟩ else 0
  bdr_phiphi i j f := if h : i < nS ∧ j < nS ∧ f < 2 * dim then F.bdr ⟨f, h.2.2⟩ ⟨i, h.1⟩ ⟨j, h.2.1⟩ else 0
  bdr_nablaphiphinufunc _ j i f := if h : i < nS ∧ j < nS ∧ f < 2 * dim then F.conorm ⟨f, h.2.2⟩ ⟨i, h.1⟩ ⟨j, h.2.1⟩ else 0
  bdr_phipsi i j f := if h : i < nS ∧ j < nB ∧ f < 2 * dim then F.psi ⟨f, h.2.2⟩ ⟨i, h.1⟩ ⟨j, h.2.1⟩ else 0
  bdr_nablaphipsinufunc _ j i f := if h : i < nB ∧ j < nS ∧ f < 2 * dim then F.conormPsi ⟨f, h.2.2⟩ ⟨i, h.1⟩ ⟨j, h.2.1⟩ else 0
  vol_phifunc _ i := if i = 0 then 1 else 0
  bdr_phifunc _ _ _ := 0
  vol_diffsquare _ c := ∑ i, c i ^ 2
  face_area f := if h : f < 2 * dim then F.area ⟨f, h⟩ else 0
  node_descriptor := types
  dirichlet_nodes := dirichlet_nodes

theorem edgeOf_form {dim nS nB : Nat} (F : Form dim nS nB ℝ) (types : Nat → Nat) : form (edgeOf F types) nB 0 = F := by
  obtain ⟨a, b, c, e, f, g⟩ := F
  simp only [form, edgeOf, Fin.is_lt, and_self, dif_pos, Fin.eta]
  rfl

/-- The grid of `2 x 2` squares. -/
noncomputable def squares (nB : Nat) : HyGraph 2 nB where
  n_hyEdges := (Cubic.mk' lexTpcc (Nat.le_refl 2) (n_elements 2 1)).n_hyEdges
  n_hyNodes := (Cubic.mk' lexTpcc (Nat.le_refl 2) (n_elements 2 1)).n_hyNodes
  hyNodes e i := match (Cubic.mk' lexTpcc (Nat.le_refl 2) (n_elements 2 1)).get_hyNode_indices .debug lexTpcc e with
    | .ok nodes => nodes i
    | _ => 0

/-- The types of its faces. -/
def squareTypes (e f : Nat) : Nat :=
  match (NodeDescriptor.Cubic.ofTopology (Cubic.mk' lexTpcc (Nat.le_refl 2) (n_elements 2 1))).get_hyFace_types .debug lexTpcc e with
  | .ok types => if h : f < 4 then types ⟨f, h⟩ else 0
  | _ => 0

/-- The hypotheses of `C96_program` can be met: the grid of `2 x 2` squares and polynomials of degree 2 with the coefficient of the first program. -/
example := fun (P : Fin 3 → Polynomial ℝ) (hP : OrthonormalPolys 2 P) =>
  C96_program .debug lexTpcc_lawful (Nat.le_refl 2) (by omega) 1 (by decide +kernel) (by decide +kernel) (p := 2) (by omega) P hP C96_coefficients.1.1 C96_coefficients.1.2 (squares 3) (by unfold squares; decide +kernel)
    ⟨rfl, rfl, fun e he => by
      obtain ⟨nodes, h1, _⟩ := C24_cubic_valid (n := 1) lexTpcc_lawful (Nat.le_refl 2) (n_elements 2 1) (by decide) (by decide +kernel) (by decide +kernel) .debug e he
      have h1' : (Cubic.mk' lexTpcc (Nat.le_refl 2) (n_elements 2 1)).get_hyNode_indices .debug lexTpcc e = .ok nodes := h1
      unfold squares
      simp only [h1']⟩
    (fun e => edgeOf ((cubeForm (tensorIntegrator 3 2 (exactBasis P)) 2 (3 ^ 2) (3 ^ 1) sin_diffusion_coeff).scaled (1 / 2 ^ 1)) (squareTypes e))
    (fun e => edgeOf_form _ _)
    (fun e => by
      obtain ⟨types, h1, _⟩ := C28_cubic (n := 1) lexTpcc_lawful (Nat.le_refl 2) (n_elements 2 1) (by decide) (by decide +kernel) (by decide +kernel) .debug e
        (lt_of_lt_of_eq e.2 (by unfold squares; decide +kernel))
      have h1' : (NodeDescriptor.Cubic.ofTopology (Cubic.mk' lexTpcc (Nat.le_refl 2) (n_elements 2 1))).get_hyFace_types .debug lexTpcc e = .ok types := h1
      rw [h1']
      congr 1
      funext f
      simp [edgeOf, squareTypes, h1', f.2])
    (fun _ => rfl) (cramerSolve _ _ ℝ) (C44_example _ _ ℝ) Real.sqrt (fun _ _ => 7) (fun _ _ => 8) _ rfl

/-- Such polynomials exist. -/
example : ∃ P : Fin 3 → Polynomial ℝ, OrthonormalPolys 2 P := exists_orthonormal 2

/-- The hypotheses of `C96_degree_zero` can be met. -/
example : ∃ P : Fin 1 → Polynomial ℝ, OrthonormalPolys 0 P ∧ ∀ lambda : LocDofs 1 ((0 + 1) ^ 0) ℝ,
    trace_to_flux .release (cramerSolve _ _ ℝ) (lsol_constr 1 0 3) lambda 0 (edgeOf ((cubeForm (tensorIntegrator 1 1 (exactBasis P)) 1 ((0 + 1) ^ 1) ((0 + 1) ^ 0) 1).scaled (1 / 8)) fun _ => 0) 0 = solveFailure .release := by
  obtain ⟨P, hP⟩ := exists_orthonormal 0
  exact ⟨P, hP, fun lambda => C96_degree_zero (d := 0) .release _ (C44_example _ _ ℝ) P hP 1 (1 / 8) 3 _ (edgeOf_form _ _) lambda 0⟩

end HyperHDG.DiffusionIP
