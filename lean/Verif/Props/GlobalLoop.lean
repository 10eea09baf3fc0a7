import Mathlib.Algebra.Order.BigOperators.Group.Finset
import Mathlib.Algebra.Order.Ring.Defs
import Verif.Proofs.GlobalClasses

/-!
# Properties C16, C17, C18: the global operators

`G` is the hypergraph, `nodes e i` the hypernode at face `i` of hyperedge `e` (`WF`: these are valid hypernodes and the number of
dofs fits into `unsigned int`).  A global vector with `n_hyNodes * n` entries is `List.ofFn x`.  The operators of the
specification are in `Verif/Spec/Assembly.lean`: `faceValues` (values of a vector on the faces of a hyperedge) and `assemble` (sum of all
contributions to a dof).
-/

namespace HyperHDG.HyGraph

open Finset Spec

variable {dim n : Nat} {K : Type}

/-! ## C16 -/

/-- **C16** (value).  If the local solver turns the face values of `x` on hyperedge `e` into `y e`, then the global product
returns, at each dof, the sum of the contributions `y e i j` of all hyperedges and faces containing this dof, in either build mode and whatever
the uninitialised local arrays contain.  (`trace_to_flux`, `residual_flux`, `trace_to_mass_flux` of all global loops.) -/
theorem C16_sum_of_contributions [AddCommMonoid K] (m : Mode) (G : HyGraph dim n)
    (nodes : Fin G.n_hyEdges → Fin (2 * dim) → Fin G.n_hyNodes) (hwf : G.WF nodes)
    (loc : LocalFun dim n K) (x : Fin (G.n_hyNodes * n) → K)
    (y : Fin G.n_hyEdges → Fin (2 * dim) → Fin n → K)
    (hloc : ∀ e : Fin G.n_hyEdges, loc e (faceValues nodes x e) (fun _ _ => 0) = .ok (y e))
    (old0 new0 : LocDofs dim n K) :
    G.mat_vec_multiply m loc old0 new0 (List.ofFn x) =
      .ok (List.ofFn (fun k => ∑ e, ∑ i, ∑ j, if dof (nodes e i) j = k then y e i j else 0)) :=
  mat_vec_eq m G nodes hwf loc x y hloc old0 new0

/-- **C16** (order).  Visiting the hyperedges in another order `σ` gives the same result. -/
theorem C16_order_independent [AddCommMonoid K] (m : Mode) (G G' : HyGraph dim n)
    (nodes : Fin G.n_hyEdges → Fin (2 * dim) → Fin G.n_hyNodes) (hwf : G.WF nodes)
    (σ : Equiv.Perm (Fin G.n_hyEdges))
    (hG' : G'.n_hyEdges = G.n_hyEdges ∧ G'.n_hyNodes = G.n_hyNodes)
    (hσ : ∀ e : Fin G.n_hyEdges, G'.hyNodes e = G.hyNodes (σ e))
    (loc loc' : LocalFun dim n K) (hl : ∀ e : Fin G.n_hyEdges, loc' e = loc (σ e))
    (x : Fin (G.n_hyNodes * n) → K) (y : Fin G.n_hyEdges → Fin (2 * dim) → Fin n → K)
    (hloc : ∀ e : Fin G.n_hyEdges, loc e (faceValues nodes x e) (fun _ _ => 0) = .ok (y e))
    (old0 new0 : LocDofs dim n K) :
    G'.mat_vec_multiply m loc' old0 new0 (List.ofFn x) = G.mat_vec_multiply m loc old0 new0 (List.ofFn x) := by
  obtain ⟨E', N', f'⟩ := G'
  obtain ⟨E, N, f⟩ := G
  obtain ⟨h1, h2⟩ := hG'
  dsimp only at h1 h2 nodes σ hσ hl x y hloc
  subst h1 h2
  have h1 := mat_vec_eq m ⟨E', N', f⟩ nodes hwf loc x y hloc old0 new0
  have h2 := mat_vec_eq m ⟨E', N', f'⟩ (fun e => nodes (σ e)) ⟨fun e i => by
      have := congrFun (hσ e) i
      exact this.trans (hwf.hyNodes_eq (σ e) i), hwf.fits⟩ loc' x (fun e => y (σ e)) (fun e => by
      show loc' e (faceValues nodes x (σ e)) _ = _
      rw [hl e]; exact hloc (σ e)) old0 new0
  have h3 := assemble_reindex nodes y σ
  exact h2.trans ((congrArg (fun v => Res.ok (List.ofFn v)) h3).trans h1.symm)

/-- **C16** (exceptions).  If the local solver throws on some hyperedge `c` and returns on all hyperedges before, the exception
leaves the global loop: no partially assembled vector is returned. -/
theorem C16_exception_propagates [AddCommMonoid K] (m : Mode) (G : HyGraph dim n)
    (nodes : Fin G.n_hyEdges → Fin (2 * dim) → Fin G.n_hyNodes) (hwf : G.WF nodes)
    (loc : LocalFun dim n K) (x : Fin (G.n_hyNodes * n) → K) (c : Fin G.n_hyEdges) (ex : Exc)
    (hbefore : ∀ e : Fin G.n_hyEdges, e < c → ∃ y, loc e (faceValues nodes x e) (fun _ _ => 0) = .ok y)
    (hc : loc c (faceValues nodes x c) (fun _ _ => 0) = .throw ex)
    (old0 new0 : LocDofs dim n K) :
    G.mat_vec_multiply m loc old0 new0 (List.ofFn x) = .throw ex := by
  unfold mat_vec_multiply for_each
  have h := forUp_ub_at G.n_hyEdges (G.matVecStep m loc (List.ofFn x))
    ⟨List.replicate (List.ofFn x).length 0, old0, new0⟩ c c.2 (.throw ex) (fun t => by simp)
    (fun s => ∃ a : Fin (G.n_hyNodes * n) → K, s.ax = List.ofFn a)
    (forUp_inv c.1 (G.matVecStep m loc (List.ofFn x)) ⟨List.replicate (List.ofFn x).length 0, old0, new0⟩
      (fun _ s => ∃ a : Fin (G.n_hyNodes * n) → K, s.ax = List.ofFn a)
      ⟨fun _ => 0, by simp⟩
      (fun b hb s ⟨a, ha⟩ => by
        let e : Fin G.n_hyEdges := ⟨b, by have := c.2; omega⟩
        obtain ⟨y, hy⟩ := hbefore e hb
        have hg := gather_eq m G hwf.fits x (G.hyNodes b) (nodes e) (fun i => hwf.hyNodes_eq e i) (s.old, s.new)
        have hl : loc b (fun i j => x (dof (nodes e i) j)) (fun _ _ => 0) = .ok y := hy
        have hs' := scatterAdd_eq m G hwf.fits (G.hyNodes b) (nodes e) (fun i => hwf.hyNodes_eq e i) y a
        simp only [matVecStep]
        rw [hg]
        simp only [Res.ok_bind]
        rw [hl]
        simp only [Res.ok_bind]
        rw [ha, hs']
        exact ⟨_, rfl, _, rfl⟩))
    (fun s ⟨a, ha⟩ => by
      have hg := gather_eq m G hwf.fits x (G.hyNodes c) (nodes c) (fun i => hwf.hyNodes_eq c i) (s.old, s.new)
      have hl : loc c (fun i j => x (dof (nodes c i) j)) (fun _ _ => 0) = .throw ex := hc
      simp only [matVecStep]
      rw [hg]
      simp only [Res.ok_bind]
      rw [hl]
      rfl)
  rw [h]
  rfl

/-! ## C17 -/

/-- **C17**.  For a linear local solver the triplets returned by `trace_to_flux_mat` are `n_hyEdges * (2 dim n)²` many, have indices below the number
of dofs, and represent the linear map computed by `trace_to_flux`.  This needs the number of triplets to fit into `unsigned int`. -/
theorem C17_matrix_agrees [CommRing K] (m : Mode) (G : HyGraph dim n)
    (nodes : Fin G.n_hyEdges → Fin (2 * dim) → Fin G.n_hyNodes) (hwf : G.WF nodes)
    (loc : LocalFun dim n K) (L : Fin G.n_hyEdges → LocDofs dim n K →ₗ[K] LocDofs dim n K)
    (hloc : ∀ (e : Fin G.n_hyEdges) (u : LocDofs dim n K), loc e u (fun _ _ => 0) = .ok (L e u))
    (hsize : G.n_hyEdges * (2 * dim * n) ^ 2 < U32) (old0 new0 : LocDofs dim n K) :
    ∃ mat, G.mat_generate m loc old0 new0 = .ok mat ∧
      mat.row_vec.length = G.n_hyEdges * (2 * dim * n) ^ 2 ∧
      mat.col_vec.length = G.n_hyEdges * (2 * dim * n) ^ 2 ∧
      mat.value_vec.length = G.n_hyEdges * (2 * dim * n) ^ 2 ∧
      (∀ r ∈ mat.row_vec, r < G.n_global_dofs) ∧ (∀ c ∈ mat.col_vec, c < G.n_global_dofs) ∧
      ∀ x : Nat → K, G.mat_vec_multiply m loc old0 new0 ((List.range G.n_global_dofs).map x) =
        .ok ((List.range G.n_global_dofs).map (tripletProduct mat.row_vec mat.col_vec mat.value_vec x)) := by
  have hlen := length_allTriplets (K := K) nodes (fun e j k => L e (unitDofs j k))
  rw [← Nat.pow_two] at hlen
  obtain ⟨mat, h1, h2, h3, h4⟩ := (mat_generate_cases m G nodes hwf loc (fun e j k => L e (unitDofs j k))
    (fun e j k => hloc e _) old0 new0).1 (by rw [← Nat.pow_two]; exact hsize)
  have hN := n_global_dofs_eq G hwf.fits
  have hb := allTriplets_bound (K := K) nodes (fun e j k => L e (unitDofs j k))
  refine ⟨mat, h1, ?_, ?_, ?_, ?_, ?_, fun x => ?_⟩
  · rw [h2, List.length_map, hlen]
  · rw [h3, List.length_map, hlen]
  · rw [h4, List.length_map, hlen]
  · intro r hr
    rw [h2, List.mem_map] at hr
    obtain ⟨t, ht, rfl⟩ := hr
    rw [hN]; exact (hb t ht).1
  · intro c hc
    rw [h3, List.mem_map] at hc
    obtain ⟨t, ht, rfl⟩ := hc
    rw [hN]; exact (hb t ht).2
  · have e : ∀ f : Nat → K, (List.range G.n_global_dofs).map f =
        List.ofFn (fun i : Fin (G.n_hyNodes * n) => f i) := by
      intro f
      rw [hN]
      apply List.ext_getElem
      · simp
      · intro i _ _; simp
    rw [e, e, mat_vec_eq m G nodes hwf loc _ _ (fun e => hloc e _)]
    congr 2
    funext k
    rw [← tripletProduct_all nodes L x k]
    unfold tripletProduct
    rw [h2, h3, h4, zip_maps]

/-- **C17** (limit).  If the number of triplets does not fit into `unsigned int`, the matrix generation writes behind the end of its vectors
(undefined behaviour): the length computed for the vectors is reduced modulo 2^32. -/
theorem C17_length_overflow [Zero K] [One K] (m : Mode) (G : HyGraph dim n)
    (nodes : Fin G.n_hyEdges → Fin (2 * dim) → Fin G.n_hyNodes) (hwf : G.WF nodes)
    (loc : LocalFun dim n K) (y : Fin G.n_hyEdges → Fin (2 * dim) → Fin n → LocDofs dim n K)
    (hy : ∀ (e : Fin G.n_hyEdges) j k, loc e (unitDofs j k) (fun _ _ => 0) = .ok (y e j k))
    (old0 new0 : LocDofs dim n K) (hsize : U32 ≤ G.n_hyEdges * (2 * dim * n) ^ 2) :
    G.mat_generate m loc old0 new0 = .ub :=
  (mat_generate_cases m G nodes hwf loc y hy old0 new0).2 (by rw [← Nat.pow_two]; exact hsize)

/-- The overflow is reachable with an admissible number of dofs: 466034 hyperedges of dimension 3 with 16 dofs per face (cubic
polynomials) on 1400000 hypernodes. -/
theorem C17_overflow_reachable : ∃ (E N : Nat), N * 16 < U32 ∧ U32 ≤ E * (2 * 3 * 16) ^ 2 ∧ 3 * E < N :=
  ⟨466034, 1400000, by decide, by decide, by decide⟩

/-! ## C18 -/

section
variable (m : Mode) (G : HyGraph dim n)
    (nodes : Fin G.n_hyEdges → Fin (2 * dim) → Fin G.n_hyNodes) (hwf : G.WF nodes)
    (old0 new0 : LocDofs dim n K)

include hwf

/-- **C18** (linearity). -/
theorem C18_linear [CommRing K] (loc : LocalFun dim n K)
    (L : Fin G.n_hyEdges → LocDofs dim n K →ₗ[K] LocDofs dim n K)
    (hloc : ∀ (e : Fin G.n_hyEdges) (u : LocDofs dim n K), loc e u (fun _ _ => 0) = .ok (L e u)) :
    ∃ A : (Fin (G.n_hyNodes * n) → K) →ₗ[K] (Fin (G.n_hyNodes * n) → K),
      ∀ x, G.mat_vec_multiply m loc old0 new0 (List.ofFn x) = .ok (List.ofFn (A x)) := by
  refine ⟨LinearMap.mk (AddHom.mk (fun x => assemble nodes (fun e => L e (faceValues nodes x e))) ?_) ?_, fun x => mat_vec_eq m G nodes hwf loc x _ (fun e => hloc e _) old0 new0⟩
  · intro x z
    funext k
    have h : ∀ e, faceValues nodes (x + z) e = faceValues nodes x e + faceValues nodes z e := fun e => rfl
    simp only [h, map_add, Pi.add_apply]
    rw [← assemble_add]
    rfl
  · intro c x
    funext k
    dsimp only
    have h : ∀ e, faceValues nodes (c • x) e = c • faceValues nodes x e := fun e => rfl
    simp only [h, map_smul, RingHom.id_apply, Pi.smul_apply, smul_eq_mul]
    rw [← assemble_smul]
    rfl

/-- **C18** (symmetry).  If `Σ v·(L e u) = Σ u·(L e v)` for each hyperedge, then the global operator is symmetric with respect to the Euclidean
scalar product. -/
theorem C18_symmetric [CommRing K] (loc : LocalFun dim n K)
    (L : Fin G.n_hyEdges → LocDofs dim n K → LocDofs dim n K)
    (hloc : ∀ (e : Fin G.n_hyEdges) (u : LocDofs dim n K), loc e u (fun _ _ => 0) = .ok (L e u))
    (hsym : ∀ e u v, ∑ i, ∑ j, v i j * L e u i j = ∑ i, ∑ j, u i j * L e v i j) :
    ∃ A : (Fin (G.n_hyNodes * n) → K) → (Fin (G.n_hyNodes * n) → K),
      (∀ x, G.mat_vec_multiply m loc old0 new0 (List.ofFn x) = .ok (List.ofFn (A x))) ∧
      ∀ x z, ∑ k, z k * A x k = ∑ k, x k * A z k := by
  refine ⟨fun x => assemble nodes (fun e => L e (faceValues nodes x e)),
    fun x => mat_vec_eq m G nodes hwf loc x _ (fun e => hloc e _) old0 new0, fun x z => ?_⟩
  rw [pairing_assemble, pairing_assemble]
  exact Finset.sum_congr rfl (fun e _ => hsym e _ _)

/-- **C18** (definiteness).  If every local operator is negative semidefinite, so is the global one; and `x·Ax = 0` only if the face values of
`x` are in the null set of each local form. -/
theorem C18_semidefinite [CommRing K] [LinearOrder K] [IsStrictOrderedRing K] (loc : LocalFun dim n K)
    (L : Fin G.n_hyEdges → LocDofs dim n K → LocDofs dim n K)
    (hloc : ∀ (e : Fin G.n_hyEdges) (u : LocDofs dim n K), loc e u (fun _ _ => 0) = .ok (L e u))
    (hneg : ∀ e u, ∑ i, ∑ j, u i j * L e u i j ≤ 0) :
    ∃ A : (Fin (G.n_hyNodes * n) → K) → (Fin (G.n_hyNodes * n) → K),
      (∀ x, G.mat_vec_multiply m loc old0 new0 (List.ofFn x) = .ok (List.ofFn (A x))) ∧
      ∀ x, ∑ k, x k * A x k ≤ 0 ∧
        (∑ k, x k * A x k = 0 →
          ∀ e, ∑ i, ∑ j, faceValues nodes x e i j * L e (faceValues nodes x e) i j = 0) := by
  refine ⟨fun x => assemble nodes (fun e => L e (faceValues nodes x e)),
    fun x => mat_vec_eq m G nodes hwf loc x _ (fun e => hloc e _) old0 new0, fun x => ?_⟩
  rw [pairing_assemble]
  refine ⟨Finset.sum_nonpos (fun e _ => hneg e _), fun h e => ?_⟩
  exact (Finset.sum_eq_zero_iff_of_nonpos (fun e _ => hneg e _)).mp h e (Finset.mem_univ e)

/-- **C18** (affine residual).  If locally `residual_flux(u) = trace_to_flux(u) + residual_flux(0)`, then the same holds globally, for every
vector. -/
theorem C18_residual_affine [CommRing K] (loc res : LocalFun dim n K)
    (L R : Fin G.n_hyEdges → LocDofs dim n K → LocDofs dim n K)
    (hloc : ∀ (e : Fin G.n_hyEdges) (u : LocDofs dim n K), loc e u (fun _ _ => 0) = .ok (L e u))
    (hres : ∀ (e : Fin G.n_hyEdges) (u : LocDofs dim n K), res e u (fun _ _ => 0) = .ok (R e u))
    (haff : ∀ e u, R e u = L e u + R e 0) (x : Fin (G.n_hyNodes * n) → K) :
    ∃ a r r0 : Fin (G.n_hyNodes * n) → K,
      G.mat_vec_multiply m loc old0 new0 (List.ofFn x) = .ok (List.ofFn a) ∧
      G.mat_vec_multiply m res old0 new0 (List.ofFn x) = .ok (List.ofFn r) ∧
      G.mat_vec_multiply m res old0 new0 G.zero_vector = .ok (List.ofFn r0) ∧ r = a + r0 := by
  refine ⟨_, _, assemble nodes (fun e => R e 0), mat_vec_eq m G nodes hwf loc x _ (fun e => hloc e _) old0 new0,
    mat_vec_eq m G nodes hwf res x _ (fun e => hres e _) old0 new0, ?_, ?_⟩
  · have : (G.zero_vector : List K) = List.ofFn (0 : Fin (G.n_hyNodes * n) → K) := by
      rw [zero_vector, n_global_dofs_eq G hwf.fits]
      show _ = List.ofFn (fun _ => (0 : K))
      rw [List.ofFn_const]
    rw [this]
    exact mat_vec_eq m G nodes hwf res 0 _ (fun e => hres e _) old0 new0
  · funext k
    rw [Pi.add_apply, ← assemble_add]
    simp only [fun e => haff e (faceValues nodes x e)]
    rfl

end

/-! ## A concrete instance

The path graph with two edges `0 - 1 - 2` (dimension 1), one dof per node, local operator `(a, b) ↦ (b - a, a - b)`. -/

namespace Example

/-- Two edges, three nodes. -/
def path : HyGraph 1 1 := ⟨2, 3, fun e i => e + i⟩

def pathNodes : Fin path.n_hyEdges → Fin (2 * 1) → Fin path.n_hyNodes := fun e i =>
  ⟨e + i, by have h1 : e.1 < 2 := e.2; have h2 := i.2; show e.1 + i.1 < 3; omega⟩

theorem path_wf : path.WF pathNodes := ⟨fun _ _ => rfl, by decide⟩

def lap (u : LocDofs 1 1 Int) : LocDofs 1 1 Int := fun i j => u (1 - i) j - u i j

def loc : LocalFun 1 1 Int := fun _ u _ => .ok (lap u)

def lapL : LocDofs 1 1 Int →ₗ[Int] LocDofs 1 1 Int where
  toFun := lap
  map_add' u v := by funext i j; simp [lap]; ring
  map_smul' c u := by funext i j; simp [lap]; ring

example : path.mat_vec_multiply .debug loc (fun _ _ => 7) (fun _ _ => 8) [1, 5, 2] = .ok [4, -7, 3] := by decide

example : ∃ mat, path.mat_generate .debug loc (fun _ _ => 7) (fun _ _ => 8) = .ok mat ∧
    mat.row_vec = [0, 1, 0, 1, 1, 2, 1, 2] ∧ mat.col_vec = [0, 0, 1, 1, 1, 1, 2, 2] ∧
    mat.value_vec = [-1, 1, 1, -1, -1, 1, 1, -1] := ⟨⟨_, _, _⟩, rfl, by decide, by decide, by decide⟩

/-- The hypotheses of C17 and C18 hold. -/
example := C17_matrix_agrees .debug path pathNodes path_wf loc (fun _ => lapL) (fun _ _ => rfl) (by decide)
  (fun _ _ => 7) (fun _ _ => 8)

example := C18_symmetric .debug path pathNodes path_wf (fun _ _ => 7) (fun _ _ => 8) loc (fun _ => lap)
  (fun _ _ => rfl) (fun _ u v => by simp [lap, Fin.sum_univ_two]; ring)

example := C18_semidefinite .debug path pathNodes path_wf (fun _ _ => 7) (fun _ _ => 8) loc (fun _ => lap)
  (fun _ _ => rfl) (fun _ u => by
    have : ∑ i, ∑ j, u i j * lap u i j = - (u 0 0 - u 1 0) ^ 2 := by
      simp [lap, Fin.sum_univ_two]; ring
    rw [this]; exact neg_nonpos.mpr (sq_nonneg _))

end Example

end HyperHDG.HyGraph
