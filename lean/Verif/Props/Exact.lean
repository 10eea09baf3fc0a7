import Verif.Proofs.Exact
import Verif.Props.Elliptic

/-!
# Property C92: solutions in the discrete spaces are found exactly

`IsExact` (`Verif/Spec/Exact.lean`) says that functions of the discrete spaces solve the problem; it mentions neither the method nor its unknowns.
-/

namespace HyperHDG.Exact

open Finset Spec Matrix HyGraph Diffusion EllipticProgram

variable {dim nS nB : Nat} {K : Type} [Field K] [LinearOrder K] [IsStrictOrderedRing K]

section
variable (m : Mode) (gesv : Gesv ((dim + 1) * nS) 1 K) (hg : GesvSpec gesv) (tau : K) (ht : 0 < tau)
  (E : Nat → Edge dim nS K) (time : K) (hE : ∀ e, FormLaws (form (E e) nB time))
  (G : HyGraph dim nB) (nodes : Fin G.n_hyEdges → Fin (2 * dim) → Fin G.n_hyNodes) (hwf : G.WF nodes)
  (D : Fin G.n_hyNodes → Prop) (hD : ∀ (e : Fin G.n_hyEdges) (f : Fin (2 * dim)), (E e).node_descriptor f ∈ (E e).dirichlet_nodes ↔ D (nodes e f))
  {q : Fin G.n_hyEdges → Fin dim → Fin nS → K} {u : Fin G.n_hyEdges → Fin nS → K} {x : Fin (G.n_hyNodes * nB) → K} (hx : IsExact E time nodes D q u x)

include hE hD hx

/-- The exact solution solves the local problems. -/
theorem local_solution (e : Fin G.n_hyEdges) : IsSolution (form (E e) nB time) tau 0 1
    (moments (form (E e) nB time) (faceValues nodes x e) + dirichletMoments (E e) time) (source (E e) time) (q e) (u e) := by
  refine exact_solution (hE e) (hx.equation e) fun f => ?_
  rw [Pi.add_apply]
  by_cases hf : D (nodes e f)
  · have h0 : faceValues nodes x e f = 0 := funext fun j => hx.zero _ hf j
    rw [moments, h0, mulVec_zero, zero_add]
    funext i
    rw [dirichletMoments, if_pos (show IsDirichlet (E e) f from (hD e f).mpr hf)]
    exact hx.dirichlet e f hf i
  · rw [moments_of_trace (hE e) (hx.continuous e f hf)]
    refine add_eq_left.mpr (funext fun i => ?_)
    rw [dirichletMoments, if_neg (show ¬ IsDirichlet (E e) f from fun h => hf ((hD e f).mp h))]
    rfl

include hg ht m

theorem solution_eq (e : Fin G.n_hyEdges) {q' : Fin dim → Fin nS → K} {u' : Fin nS → K} (h : IsSolution (form (E e) nB time) tau 0 1
    (moments (form (E e) nB time) (faceValues nodes x e) + dirichletMoments (E e) time) (source (E e) time) q' u') : q' = q e ∧ u' = u e :=
  solution_unique (C21_solvable m gesv hg tau (E e) time (hE e) ht (0 : LocDofs dim nB K) 0).1 h (local_solution tau E time hE G nodes D hD hx e)

/-- **C92** (bulk values).  For the values of the exact solution at the hypernodes, `bulk_values` returns the values of the exact flux and of the exact solution at the points of the grid. -/
theorem C92_bulk_values (e : Fin G.n_hyEdges) (lin_comb : (Fin nS → K) → List K → K) (abscissas : List K) (vals0 : Fin (dim + 1) → Fin (Hypercube.pow dim abscissas.length) → K) :
    ∃ vals, bulk_values m gesv lin_comb tau abscissas (faceValues nodes x e) (E e) time vals0 = .ok vals ∧
      ∀ pt : Fin (Hypercube.pow dim abscissas.length), ∃ p, Hypercube.tensorial_pt m dim pt abscissas = .ok p ∧
        (∀ d : Fin dim, vals d.castSucc pt = lin_comb (q e d) p) ∧ vals (Fin.last dim) pt = lin_comb (u e) p := by
  obtain ⟨q', u', h1, h2⟩ := C48_bulk_values m gesv hg tau (E e) time (C21_solvable m gesv hg tau (E e) time (hE e) ht (0 : LocDofs dim nB K) 0).1 lin_comb abscissas
    (faceValues nodes x e) vals0
  obtain ⟨rfl, rfl⟩ := solution_eq m gesv hg tau ht E time hE G nodes D hD hx e h1
  exact h2

/-- **C92** (errors).  For the values of the exact solution at the hypernodes, `errors` compares the exact solution with the analytic result. -/
theorem C92_errors (e : Fin G.n_hyEdges) : errors m gesv tau (faceValues nodes x e) (E e) time = .ok (fun _ => (E e).vol_diffsquare time (u e)) := by
  obtain ⟨q', u', h1, h2⟩ := C48_errors m gesv hg tau (E e) time (C21_solvable m gesv hg tau (E e) time (hE e) ht (0 : LocDofs dim nB K) 0).1 (faceValues nodes x e)
  obtain ⟨_, rfl⟩ := solution_eq m gesv hg tau ht E time hE G nodes D hD hx e h1
  exact h2

include hwf

/-- **C92** (residual).  The values of the exact solution at the hypernodes have residual zero. -/
theorem C92_residual (old0 new0 : LocDofs dim nB K) :
    (Elliptic.mk' G).apply m (localResidual m gesv tau E time) old0 new0 (List.ofFn x) = .ok (List.replicate (G.n_hyNodes * nB) 0) := by
  have hloc : ∀ e : Fin G.n_hyEdges, localResidual m gesv tau E time e (faceValues nodes x e) (fun _ _ => 0) =
      .ok (offDirichlet (E e) (faceFlux (form (E e) nB time) tau (faceValues nodes x e) (q e) (u e))) := by
    intro e
    obtain ⟨q', u', h1, h2⟩ := (C21_residual m gesv hg tau (E e) time (faceValues nodes x e) (fun _ _ => 0)).1
      (C21_solvable m gesv hg tau (E e) time (hE e) ht (0 : LocDofs dim nB K) 0).1
    obtain ⟨rfl, rfl⟩ := solution_eq m gesv hg tau ht E time hE G nodes D hD hx e h1
    exact h2
  rw [C23_fresh, mat_vec_eq m G nodes hwf _ x _ hloc old0 new0, ← List.ofFn_const]
  refine congrArg (fun v => Res.ok (List.ofFn v)) (funext fun k => ?_)
  obtain ⟨v, j, rfl⟩ := dof_surj k
  rw [assemble_at]
  by_cases hv : D v
  · refine sum_eq_zero fun e _ => sum_eq_zero fun f _ => ?_
    split
    next h =>
      rw [offDirichlet, if_pos (show IsDirichlet (E e) f from (hD e f).mpr (h ▸ hv))]
    next => rfl
  · refine Eq.trans (sum_congr rfl fun e _ => sum_congr rfl fun f _ => ?_) (hx.balance v hv j)
    split
    next h =>
      have hf : ¬ D (nodes e f) := h ▸ hv
      rw [offDirichlet, if_neg (show ¬ IsDirichlet (E e) f from fun h => hf ((hD e f).mp h)), exact_flux (hx.continuous e f hf)]
    next => rfl

variable (hR : ∀ e, Rigid (form (E e) nB time)) (hcon : Anchored nodes D)

include hR hcon

/-- **C92** (exactness).  The only vector which vanishes at the Dirichlet nodes and has residual zero contains the values of the exact solution. -/
theorem C92_exact (old0 new0 : LocDofs dim nB K) (y : Fin (G.n_hyNodes * nB) → K) : (VanishesAt D y ∧
    (Elliptic.mk' G).apply m (localResidual m gesv tau E time) old0 new0 (List.ofFn y) = .ok (List.replicate (G.n_hyNodes * nB) 0)) ↔ y = x := by
  obtain ⟨z, _, h2⟩ := C54_unique m gesv hg tau ht E time hE hR G nodes hwf D hD hcon old0 new0
  have h3 := h2 x ⟨hx.zero, C92_residual m gesv hg tau ht E time hE G nodes hwf D hD hx old0 new0⟩
  refine ⟨fun h => (h2 y h).trans h3.symm, ?_⟩
  rintro rfl
  exact ⟨hx.zero, C92_residual m gesv hg tau ht E time hE G nodes hwf D hD hx old0 new0⟩

/-- **C92** (the program).  The program returns a vector vanishing at the Dirichlet nodes; `trace_to_flux` of its difference from the values of the exact solution is smaller than the tolerance (and
vanishes only if the difference does). -/
theorem C92_program (old0 new0 : LocDofs dim nB K) (div : K → K → K) (hdiv : ∀ a c, c ≠ 0 → div a c = a / c) (tolerance : K) (htol : tolerance ≠ 0) :
    ∃ y r : Fin (G.n_hyNodes * nB) → K, EllipticProgram.solve m div G (localOperator m gesv tau E time) (localResidual m gesv tau E time) old0 new0 tolerance = .ok (List.ofFn y) ∧
      VanishesAt D y ∧ (Elliptic.mk' G).apply m (localOperator m gesv tau E time) old0 new0 (List.ofFn (y - x)) = .ok (List.ofFn r) ∧ ∑ k, r k ^ 2 < tolerance ^ 2 ∧ (r = 0 → y = x) := by
  obtain ⟨A, R, hA, hRes, _, _, _, _, hdef⟩ := diffusion_operator m gesv hg tau ht E time hE hR G nodes hwf D hD hcon old0 new0
  obtain ⟨y, r, h1, h2, h3, h4⟩ := C54_solve m gesv hg tau ht E time hE hR G nodes hwf D hD hcon old0 new0 div hdiv tolerance htol
  have h5 := C92_residual m gesv hg tau ht E time hE G nodes hwf D hD hx old0 new0
  rw [C23_fresh, hRes] at h3 h5
  rw [← List.ofFn_const] at h5
  have h6 := List.ofFn_injective (Res.ok.inj h3)
  have h7 := List.ofFn_injective (Res.ok.inj h5)
  have h8 : A (y - x) = r := by
    rw [map_sub, ← h6, eq_neg_of_add_eq_zero_left (show A x + R = 0 from h7), sub_neg_eq_add]
  refine ⟨y, r, h1, h2, by rw [C23_fresh, hA, h8], h4, fun h => ?_⟩
  rw [h] at h8
  exact sub_eq_zero.mp (hdef (y - x) (fun v hv j => by rw [Pi.sub_apply, h2 v hv j, hx.zero v hv j, sub_zero]) (by simp [h8]))

end

end HyperHDG.Exact
